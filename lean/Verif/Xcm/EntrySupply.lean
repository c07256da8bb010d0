import Verif.Xcm.EntryLemmas

/-! # Entry of XCM messages: what a message can add to the supply -/

set_option linter.unusedSimpArgs false
set_option linter.unusedVariables false

namespace Verif.Xcm
open Verif

variable {e : Env}

/-! ## Amounts -/

theorem heldIn_nil (x : Nat) : heldIn e x [] = 0 := rfl
theorem heldIn_cons (x : Nat) (a : AssetKey × Nat) (h : Assets) :
    heldIn e x (a :: h) = (if curOf e a.1 = some x then a.2 else 0) + heldIn e x h := by
  unfold heldIn
  rw [List.map_cons, List.sum_cons]

theorem heldIn_perm {x : Nat} {h h' : Assets} (p : h.Perm h') : heldIn e x h = heldIn e x h' := by
  unfold heldIn
  exact (p.map _).sum_eq

theorem heldIn_add (x : Nat) (a : AssetKey × Nat) : ∀ h : Assets,
    heldIn e x (addAsset a h) ≤ heldIn e x h + (if curOf e a.1 = some x then a.2 else 0) := by
  intro h
  induction h with
  | nil =>
    unfold addAsset
    rw [heldIn_cons]
    omega
  | cons b h ih =>
    unfold addAsset
    split
    · rename_i hb
      rw [heldIn_cons, heldIn_cons]
      dsimp only
      rw [hb]
      split
      · have := Nat.min_le_left (b.2 + a.2) maxU128
        omega
      · omega
    · rw [heldIn_cons, heldIn_cons]
      omega

theorem heldIn_split (x : Nat) (cap : AssetKey → Nat) : ∀ h : Assets,
    heldIn e x (taken cap h) + heldIn e x (remaining cap h) = heldIn e x h := by
  intro h
  induction h with
  | nil => rfl
  | cons b h ih =>
    have f1 : heldIn e x (taken cap (b :: h)) = (if curOf e b.1 = some x then min (cap b.1) b.2 else 0) + heldIn e x (taken cap h) := by
      unfold taken
      rw [List.map_cons, List.filter_cons]
      split
      · rw [heldIn_cons]
      · rename_i hz
        have : min (cap b.1) b.2 = 0 := by
          by_contra hne
          exact hz (decide_eq_true hne)
        rw [this]
        simp
    have f2 : heldIn e x (remaining cap (b :: h)) = (if curOf e b.1 = some x then b.2 - cap b.1 else 0) + heldIn e x (remaining cap h) := by
      unfold remaining
      rw [List.map_cons, List.filter_cons]
      split
      · rw [heldIn_cons]
      · rename_i hz
        have : b.2 - cap b.1 = 0 := by simpa using hz
        rw [this]
        simp
    rw [f1, f2, heldIn_cons]
    split
    · have : min (cap b.1) b.2 + (b.2 - cap b.1) = b.2 := by omega
      omega
    · omega

theorem heldIn_tryTake (x : Nat) (f : AssetKey × Nat) : ∀ (h h' : Assets), tryTake f h = some h' →
    heldIn e x h' + (if curOf e f.1 = some x then f.2 else 0) = heldIn e x h := by
  intro h
  induction h with
  | nil =>
    intro h' ht
    unfold tryTake at ht
    split at ht
    · rename_i h0
      cases ht
      rw [h0]
      simp [heldIn_nil]
    · cases ht
  | cons b h ih =>
    intro h' ht
    unfold tryTake at ht
    split at ht
    · rename_i hb
      split at ht
      · rename_i hle
        cases ht
        rw [heldIn_cons, hb]
        split
        · rename_i heq
          rw [heq]
          omega
        · rw [heldIn_cons]
          dsimp only
          split <;> omega
      · cases ht
    · simp only [Option.map_eq_some_iff] at ht
      obtain ⟨h2, h3, rfl⟩ := ht
      have := ih _ h3
      rw [heldIn_cons, heldIn_cons]
      omega

theorem trappedIn_cons (x : Nat) (t : Loc × Assets) (ts : List (Loc × Assets)) :
    trappedIn e x (t :: ts) = heldIn e x t.2 + trappedIn e x ts := by
  unfold trappedIn
  rw [List.map_cons, List.sum_cons]

theorem trappedIn_erase (x : Nat) (o : Loc) (as : Assets) : ∀ ts : List (Loc × Assets), ts.any (sameTrap o as) = true →
    trappedIn e x (ts.eraseP (sameTrap o as)) + heldIn e x as = trappedIn e x ts := by
  intro ts
  induction ts with
  | nil => intro h; simp at h
  | cons t ts ih =>
    intro h
    rw [List.eraseP_cons, Bool.cond_eq_ite]
    by_cases ht : sameTrap o as t = true
    · rw [if_pos ht, trappedIn_cons]
      have : heldIn e x t.2 = heldIn e x as := by
        unfold sameTrap at ht
        rw [Bool.and_eq_true, List.isPerm_iff] at ht
        exact heldIn_perm ht.2
      omega
    · rw [if_neg ht, trappedIn_cons, trappedIn_cons]
      rw [List.any_cons, Bool.or_eq_true] at h
      have := ih (h.resolve_left ht)
      omega

/-- Units of asset `x` booked by the trader. -/
def bookedIn (e : Env) (x : Nat) (tr : Trader Loc) : Nat := match tr.asset with
  | none => 0
  | some (t, a, _) => if curOf e (.concrete t) = some x then a else 0

/-- All units of asset `x` while a message runs. -/
def Vm.units (e : Env) (vm : Vm) (x : Nat) : Nat :=
  vm.ledger.iss x + heldIn e x vm.holding + trappedIn e x vm.traps + bookedIn e x vm.trader

theorem curOf_eq (a : AssetKey × Nat) : currencyOf e.cfg (toMulti a) = curOf e a.1 := by
  unfold currencyOf curOf toMulti
  dsimp only
  cases a.1 <;> rfl

/-! ## The parts -/

theorem subsume_units (x : Nat) (vm : Vm) (a : AssetKey × Nat) :
    (subsume e vm a).1.units e x ≤ vm.units e x + (if curOf e a.1 = some x then a.2 else 0) := by
  unfold subsume
  split
  · have := heldIn_add (e := e) x a vm.holding
    unfold Vm.units
    dsimp only
    omega
  · dsimp only
    omega

theorem subsumeAll_units (x : Nat) : ∀ (as : Assets) (vm : Vm),
    (subsumeAll e vm as).1.units e x ≤ vm.units e x + heldIn e x as := by
  intro as
  induction as with
  | nil => intro vm; exact Nat.le_refl _
  | cons a as ih =>
    intro vm
    have h1 := subsume_units (e := e) x vm a
    unfold subsumeAll
    rw [heldIn_cons]
    rcases hs : subsume e vm a with ⟨v, r⟩
    rw [hs] at h1
    dsimp only at h1
    cases r with
    | ok u =>
      have := ih v
      dsimp only
      omega
    | error y => dsimp only; omega

theorem withdraw_iss {l l' : Ledger} {a : AssetKey × Nat} {o : Loc} (hl : l.WF)
    (h : withdraw e.cfg l (toMulti a) o = .ok l') (x : Nat) :
    l'.WF ∧ l'.iss x + (if curOf e a.1 = some x then a.2 else 0) = l.iss x := by
  obtain ⟨h1, h2⟩ := runOp_iss (c := e.cfg) hl (.withdraw (toMulti a) o) x
  have e1 : runOp e.cfg l (.withdraw (toMulti a) o) = l' := by
    show commit l (withdraw e.cfg l (toMulti a) o) = l'
    rw [h]
    rfl
  rw [e1] at h1 h2
  refine ⟨h1, ?_⟩
  have e2 : outflow e.cfg l x (.withdraw (toMulti a) o) = if curOf e a.1 = some x then a.2 else 0 := by
    show (if succeeded (withdraw e.cfg l (toMulti a) o) = true ∧ currencyOf e.cfg (toMulti a) = some x then a.2 else 0) = _
    rw [h, curOf_eq]
    by_cases hc : curOf e a.1 = some x
    · rw [if_pos hc, if_pos ⟨rfl, hc⟩]
    · rw [if_neg hc, if_neg (fun hh => hc hh.2)]
  have e3 : inflow e.cfg l x (.withdraw (toMulti a) o) = 0 := rfl
  rw [e2, e3] at h2
  exact h2

theorem move_iss {l l' : Ledger} {a : AssetKey × Nat} {o d : Loc} (hl : l.WF)
    (h : transferAsset e.cfg l (toMulti a) o d = .ok l') (x : Nat) : l'.WF ∧ l'.iss x = l.iss x := by
  obtain ⟨h1, h2⟩ := runOp_iss (c := e.cfg) hl (.move (toMulti a) o d) x
  have e1 : runOp e.cfg l (.move (toMulti a) o d) = l' := by
    show commit l (transferAsset e.cfg l (toMulti a) o d) = l'
    rw [h]
    rfl
  rw [e1] at h1 h2
  exact ⟨h1, h2⟩

theorem deposit_iss {l : Ledger} {a : AssetKey × Nat} {d : Loc} (hl : l.WF) (x : Nat) :
    (deposit e.cfg l (toMulti a) d).1.WF ∧
    (deposit e.cfg l (toMulti a) d).1.iss x ≤ l.iss x + (if curOf e a.1 = some x then a.2 else 0) := by
  obtain ⟨h1, h2⟩ := runOp_iss (c := e.cfg) hl (.deposit (toMulti a) d) x
  refine ⟨h1, ?_⟩
  have e3 : outflow e.cfg l x (.deposit (toMulti a) d) = 0 := rfl
  have e2 : inflow e.cfg l x (.deposit (toMulti a) d) ≤ if curOf e a.1 = some x then a.2 else 0 := by
    show (if succeeded (deposit e.cfg l (toMulti a) d).2 = true ∧ currencyOf e.cfg (toMulti a) = some x then a.2 else 0) ≤ _
    rw [curOf_eq]
    by_cases hc : curOf e a.1 = some x
    · rw [if_pos hc]
      split <;> omega
    · rw [if_neg hc, if_neg (fun hh => hc hh.2)]
  rw [e3] at h2
  change (deposit e.cfg l (toMulti a) d).1.iss x + 0 = _ at h2
  omega

/-- Ledger in order, and not more units than before. -/
def Fine (e : Env) (x n : Nat) (vm : Vm) : Prop := vm.ledger.WF ∧ vm.units e x ≤ n

theorem withdrawAll_fine (x n : Nat) (o : Loc) : ∀ (as : Assets) (vm : Vm), Fine e x n vm →
    Fine e x n (withdrawAll e o vm as).1 := by
  intro as
  induction as with
  | nil => intro vm h; exact h
  | cons a as ih =>
    intro vm h
    unfold withdrawAll
    cases hw : withdraw e.cfg vm.ledger (toMulti a) o with
    | error y => exact h
    | ok l =>
      obtain ⟨w1, w2⟩ := withdraw_iss (e := e) h.1 hw x
      dsimp only
      obtain ⟨hd, hh⟩ := subsume_frame (e := e) { vm with ledger := l } a
      have hu := subsume_units (e := e) x { vm with ledger := l } a
      rcases hs : subsume e { vm with ledger := l } a with ⟨v, r⟩
      rw [hs] at hh hu
      dsimp only at hh hu
      have hv : Fine e x n v := by
        refine ⟨by rw [hh]; exact w1, ?_⟩
        have := h.2
        unfold Vm.units at this hu ⊢
        dsimp only at hu
        omega
      cases r with
      | ok u => exact ih v hv
      | error y => exact hv

theorem transferAll_fine (x n : Nat) (o dst : Loc) : ∀ (as : Assets) (vm : Vm), Fine e x n vm →
    Fine e x n (transferAll e o dst vm as).1 := by
  intro as
  induction as with
  | nil => intro vm h; exact h
  | cons a as ih =>
    intro vm h
    unfold transferAll
    cases hw : transferAsset e.cfg vm.ledger (toMulti a) o dst with
    | error y => exact h
    | ok l =>
      obtain ⟨w1, w2⟩ := move_iss (e := e) h.1 hw x
      refine ih _ ⟨w1, ?_⟩
      have := h.2
      unfold Vm.units at this ⊢
      dsimp only
      omega

theorem depositAll_fine (x n : Nat) (dst : Loc) : ∀ (as : Assets) (vm : Vm), vm.ledger.WF →
    vm.units e x + heldIn e x as ≤ n → Fine e x n (depositAll e dst vm as).1 := by
  intro as
  induction as with
  | nil => intro vm h1 h2; exact ⟨h1, h2⟩
  | cons a as ih =>
    intro vm h1 h2
    rw [heldIn_cons] at h2
    unfold depositAll
    obtain ⟨w1, w2⟩ := deposit_iss (e := e) (a := a) (d := dst) h1 x
    rcases hw : deposit e.cfg vm.ledger (toMulti a) dst with ⟨l, r⟩
    rw [hw] at w1 w2
    dsimp only at w1 w2
    have hu : ({ vm with ledger := l } : Vm).units e x ≤ vm.units e x + (if curOf e a.1 = some x then a.2 else 0) := by
      unfold Vm.units
      dsimp only
      omega
    cases r with
    | error y => exact ⟨w1, by dsimp only; omega⟩
    | ok u => exact ih _ w1 (by omega)

theorem receiveAll_fine (x n : Nat) {o : Loc} (hr : ∀ k, isReserve k o = true → curOf e k ≠ some x) :
    ∀ (as : Assets) (vm : Vm), Fine e x n vm → Fine e x n (receiveAll e o vm as).1 := by
  intro as
  induction as with
  | nil => intro vm h; exact h
  | cons a as ih =>
    intro vm h
    unfold receiveAll
    split
    · rename_i hres
      have hu := subsume_units (e := e) x vm a
      rw [if_neg (hr _ hres)] at hu
      obtain ⟨hd, hh⟩ := subsume_frame (e := e) vm a
      rcases hs : subsume e vm a with ⟨v, r⟩
      rw [hs] at hu hh
      dsimp only at hu hh
      have hv : Fine e x n v := ⟨by rw [hh]; exact h.1, by have := h.2; omega⟩
      cases r with
      | ok u => exact ih v hv
      | error y => exact hv
    · exact h

/-! ## The trader -/

theorem buy_single {f : Fees Loc} {tr tr' : Trader Loc} {w : Weight} {k : AssetKey} {n : Nat} {un : Holding Loc}
    (h : buy f tr w [(toKey k, n)] = some (un, tr')) : ∃ t u, k = .concrete t ∧ f.supported t = true ∧ f.units t = some u ∧
      ((feeOf u w.rt = 0 ∧ un = [(toKey k, n)] ∧ tr' = tr) ∨
       (feeOf u w.rt ≠ 0 ∧ feeOf u w.rt ≤ n ∧ un = (if n = feeOf u w.rt then [] else [(toKey k, n - feeOf u w.rt)]) ∧
        tr' = book tr w t (feeOf u w.rt) u)) := by
  cases k with
  | abstract m => cases h
  | concrete t =>
    unfold buy toKey at h
    dsimp only at h
    split at h
    · rename_i hs
      cases hu : f.units t with
      | none => rw [hu] at h; cases h
      | some u =>
        rw [hu] at h
        dsimp only at h
        refine ⟨t, u, rfl, hs, hu, ?_⟩
        split at h
        · rename_i h0
          cases h
          exact Or.inl ⟨h0, rfl, rfl⟩
        · rename_i h0
          unfold subFirst at h
          by_cases hle : feeOf u w.rt ≤ n
          · rw [if_pos hle] at h
            cases h
            exact Or.inr ⟨h0, hle, rfl, rfl⟩
          · rw [if_neg hle] at h
            cases h
    · cases h

theorem book_units (x : Nat) (tr : Trader Loc) (w : Weight) (t : Loc) (a u : Nat) :
    bookedIn e x (book tr w t a u) ≤ bookedIn e x tr + (if curOf e (.concrete t) = some x then a else 0) := by
  unfold book bookedIn
  cases tr.asset with
  | none => dsimp only; omega
  | some q =>
    obtain ⟨p, b, v⟩ := q
    dsimp only
    by_cases hp : p = t
    · subst hp
      rw [if_pos rfl]
      dsimp only
      split
      · have := Nat.min_le_left (b + a) maxU128
        omega
      · omega
    · rw [if_neg hp]
      dsimp only
      omega

theorem ofKey_toKey (k : AssetKey) : ofKey (toKey k) = k := by cases k <;> rfl

theorem buyExecution_units (x : Nat) (vm : Vm) (f : AssetKey × Nat) (l : Option Weight) :
    (buyExecution e vm f l).1.units e x ≤ vm.units e x := by
  unfold buyExecution
  cases l with
  | none => exact Nat.le_refl _
  | some w =>
    dsimp only
    cases ht : tryTake f vm.holding with
    | none => exact Nat.le_refl _
    | some h =>
      have h1 := heldIn_tryTake (e := e) x f _ _ ht
      dsimp only
      cases hb : buy e.fees vm.trader w [(toKey f.1, f.2)] with
      | none =>
        unfold Vm.units
        dsimp only
        omega
      | some q =>
        obtain ⟨un, tr⟩ := q
        dsimp only
        have h2 := subsumeAll_units (e := e) x (un.map (fun a => (ofKey a.1, a.2))) { vm with holding := h, trader := tr }
        refine h2.trans ?_
        obtain ⟨t, u, hk, -, -, hc⟩ := buy_single hb
        rcases hc with ⟨-, rfl, rfl⟩ | ⟨-, hle, rfl, rfl⟩
        · rw [List.map_cons, List.map_nil, heldIn_cons, heldIn_nil]
          dsimp only
          rw [ofKey_toKey]
          unfold Vm.units
          dsimp only
          omega
        · have h3 := book_units (e := e) x vm.trader w t (feeOf u w.rt) u
          rw [← hk] at h3
          have h4 : heldIn e x ((if f.2 = feeOf u w.rt then [] else [(toKey f.1, f.2 - feeOf u w.rt)]).map (fun a => (ofKey a.1, a.2))) ≤
              if curOf e f.1 = some x then f.2 - feeOf u w.rt else 0 := by
            split
            · exact Nat.zero_le _
            · rw [List.map_cons, List.map_nil, heldIn_cons, heldIn_nil]
              dsimp only
              rw [ofKey_toKey]
              omega
          unfold Vm.units
          dsimp only
          by_cases hcur : curOf e f.1 = some x
          · simp only [if_pos hcur] at h1 h3 h4
            omega
          · simp only [if_neg hcur] at h1 h3 h4
            omega

/-! ## Weights and refunds -/

/-- Weight of a list of instructions in reference time. -/
def wt (e : Env) (is : List Instr) : Nat := (weights e.base is).rt

theorem wt_nil : wt e [] = 0 := rfl
theorem wt_cons (i : Instr) (is : List Instr) : wt e (i :: is) = (i.weight e.base).rt + wt e is := by
  unfold wt
  rw [weights]
  rfl

/-- The surplus and all weight still to come fit the weight `W` of the message. -/
def Pot (e : Env) (W : Nat) (vm : Vm) (is : List Instr) : Prop :=
  vm.refunded.rt ≤ vm.surplus.rt ∧ vm.surplus.rt + wt e is + wt e vm.handler + wt e vm.appendix ≤ W

/-- The trader has enough booked for all refunds still possible. -/
def Bought (W : Nat) (vm : Vm) : Prop := ∃ t a u, vm.trader.asset = some (t, a, u) ∧
  u * (W - vm.refunded.rt) / perSecond ≤ a ∧ a ≤ maxU128

theorem Bought.congr {W : Nat} {v v' : Vm} (h : Bought W v) (h1 : v'.trader = v.trader) (h2 : v'.refunded = v.refunded) :
    Bought W v' := by
  unfold Bought
  rw [h1, h2]
  exact h

theorem Bought.book {W : Nat} {v : Vm} (h : Bought W v) (w : Weight) (t : Loc) (m u : Nat) (hd : Assets) :
    Bought W { v with trader := book v.trader w t m u, holding := hd } := by
  obtain ⟨p, a, u', h1, h2, h3⟩ := h
  unfold Bought Xcm.book
  rw [h1]
  dsimp only
  by_cases hp : p = t
  · rw [if_pos hp]
    refine ⟨t, _, u', rfl, ?_, Nat.min_le_right _ _⟩
    exact h2.trans (by omega)
  · rw [if_neg hp]
    exact ⟨p, a, u', rfl, h2, h3⟩

theorem div_split {u a b c : Nat} (h : a + b ≤ c) : u * a / perSecond + u * b / perSecond ≤ u * c / perSecond := by
  have h1 : u * a + u * b ≤ u * c := by rw [← Nat.mul_add]; exact Nat.mul_le_mul_left _ h
  generalize u * a = x at *
  generalize u * b = y at *
  generalize u * c = z at *
  unfold perSecond
  omega

/-- What a refund does. -/
theorem refundSurplus_cases {W : Nat} (x : Nat) (vm : Vm) (is : List Instr) (hp : Pot e W vm is) :
    (Bought W vm → Bought W (refundSurplus e vm).1 ∧ (refundSurplus e vm).1.units e x ≤ vm.units e x) ∧
    (vm.trader.asset = none → (refundSurplus e vm).1.trader.asset = none ∧ (refundSurplus e vm).1.units e x = vm.units e x) ∧
    (refundSurplus e vm).1.refunded.rt ≤ vm.surplus.rt := by
  unfold refundSurplus
  by_cases hle : vm.surplus.le vm.refunded
  · rw [if_pos hle]
    exact ⟨fun hb => ⟨hb, Nat.le_refl _⟩, fun hn => ⟨hn, rfl⟩, hp.1⟩
  · rw [if_neg hle]
    have hr : (vm.refunded.plus (vm.surplus.sub vm.refunded)).rt ≤ vm.surplus.rt := by
      have := hp.1
      show vm.refunded.rt + (vm.surplus.rt - vm.refunded.rt) ≤ _
      omega
    cases ha : vm.trader.asset with
    | none =>
      have : refund vm.trader (vm.surplus.sub vm.refunded) = .ok (vm.trader, none) := by
        unfold refund
        rw [ha]
      rw [this]
      refine ⟨?_, fun _ => ⟨ha, rfl⟩, hr⟩
      rintro ⟨t, a, u, hh, -⟩
      rw [ha] at hh
      cases hh
    | some q =>
      obtain ⟨t, a, u⟩ := q
      refine ⟨?_, fun hn => by (cases hn), ?_⟩
      · rintro ⟨t', a', u', hh, h2, h3⟩
        rw [ha] at hh
        cases hh
        generalize hq : refund vm.trader (vm.surplus.sub vm.refunded) = q
        unfold refund at hq
        rw [ha] at hq
        dsimp only at hq
        split at hq
        · subst hq
          dsimp only
          generalize hrr : ((vm.surplus.sub vm.refunded).inf vm.trader.weight).rt = r
          have hr1 : r ≤ vm.surplus.rt - vm.refunded.rt := by
            rw [← hrr]
            exact Nat.min_le_left _ _
          have hpot := hp.2
          have hp1 := hp.1
          have hdiv := div_split (u := u) (a := r) (b := W - vm.surplus.rt) (c := W - vm.refunded.rt) (by omega)
          have hra : u * r / perSecond ≤ a := ((Nat.le_add_right _ _).trans hdiv).trans h2
          obtain ⟨hd, hfr⟩ := subsume_frame (e := e) { vm with
            refunded := vm.refunded.plus (vm.surplus.sub vm.refunded)
            trader := ⟨vm.trader.weight.sub ((vm.surplus.sub vm.refunded).inf vm.trader.weight),
              some (t, a - u * r / perSecond, u)⟩ } (.concrete t, u * r / perSecond)
          have hun := subsume_units (e := e) x { vm with
            refunded := vm.refunded.plus (vm.surplus.sub vm.refunded)
            trader := ⟨vm.trader.weight.sub ((vm.surplus.sub vm.refunded).inf vm.trader.weight),
              some (t, a - u * r / perSecond, u)⟩ } (.concrete t, u * r / perSecond)
          refine ⟨?_, ?_⟩
          · rw [hfr]
            refine ⟨t, a - u * r / perSecond, u, rfl, ?_, (Nat.sub_le _ _).trans h3⟩
            have : W - (vm.refunded.plus (vm.surplus.sub vm.refunded)).rt = W - vm.surplus.rt := by
              show W - (vm.refunded.rt + (vm.surplus.rt - vm.refunded.rt)) = _
              omega
            dsimp only
            rw [this]
            omega
          · refine hun.trans ?_
            unfold Vm.units bookedIn
            dsimp only
            rw [ha]
            dsimp only
            split <;> omega
        · subst hq
          exact ⟨⟨t, a, u, ha, h2, h3⟩, Nat.le_refl _⟩
      · cases hq : refund vm.trader (vm.surplus.sub vm.refunded) with
        | error y => exact hp.1
        | ok z =>
          obtain ⟨tr, z⟩ := z
          cases z with
          | none => exact hr
          | some z =>
            obtain ⟨t', m⟩ := z
            obtain ⟨hd, hfr⟩ := subsume_frame (e := e)
              { vm with refunded := vm.refunded.plus (vm.surplus.sub vm.refunded), trader := tr } (.concrete t', m)
            dsimp only
            rw [hfr]
            exact hr

theorem base_le_weight (i : Instr) : e.base.rt ≤ (i.weight e.base).rt := by
  cases i <;> first | exact Nat.le_refl _ | exact Nat.le_add_right _ _

/-- A step keeps the account of weights. -/
theorem step_pot {W : Nat} (vm : Vm) (i : Instr) (is : List Instr) (hp : Pot e W vm (i :: is)) :
    Pot e W (step e vm i).1 is := by
  have hp0 := hp
  obtain ⟨h1, h2⟩ := hp
  rw [wt_cons] at h2
  have keep : ∀ v : Vm, v.refunded = vm.refunded → v.surplus = vm.surplus → v.handler = vm.handler → v.appendix = vm.appendix →
      Pot e W v is := by
    intro v q1 q2 q3 q4
    unfold Pot
    rw [q1, q2, q3, q4]
    exact ⟨h1, by omega⟩
  cases i with
  | withdraw as =>
    refine withOrigin_elim (P := fun r => Pot e W r.1 is) vm _ (keep _ rfl rfl rfl rfl) (fun o' ho => ?_)
    obtain ⟨l, hd, hh⟩ := withdrawAll_frame (e := e) o' as vm
    rw [hh]
    exact keep _ rfl rfl rfl rfl
  | reserveDeposited as =>
    refine withOrigin_elim (P := fun r => Pot e W r.1 is) vm _ (keep _ rfl rfl rfl rfl) (fun o' ho => ?_)
    obtain ⟨hd, hh⟩ := receiveAll_frame (e := e) o' as vm
    rw [hh]
    exact keep _ rfl rfl rfl rfl
  | teleported as =>
    refine withOrigin_elim (P := fun r => Pot e W r.1 is) vm _ (keep _ rfl rfl rfl rfl) (fun o' ho => ?_)
    split <;> exact keep _ rfl rfl rfl rfl
  | claim as =>
    refine withOrigin_elim (P := fun r => Pot e W r.1 is) vm _ (keep _ rfl rfl rfl rfl) (fun o' ho => ?_)
    split
    · obtain ⟨hd, hh⟩ := subsumeAll_frame (e := e) as { vm with traps := vm.traps.eraseP (sameTrap o' as) }
      rw [hh]
      exact keep _ rfl rfl rfl rfl
    · exact keep _ rfl rfl rfl rfl
  | clearOrigin => exact keep _ rfl rfl rfl rfl
  | descend js =>
    refine withOrigin_elim (P := fun r => Pot e W r.1 is) vm _ (keep _ rfl rfl rfl rfl) (fun o' ho => ?_)
    split <;> exact keep _ rfl rfl rfl rfl
  | buy f l =>
    obtain ⟨tr, hd, hh⟩ := buyExecution_frame (e := e) vm f l
    show Pot e W (buyExecution e vm f l).1 is
    rw [hh]
    exact keep _ rfl rfl rfl rfl
  | refundSurplus =>
    have hc := (refundSurplus_cases (e := e) 0 vm _ hp0).2.2
    obtain ⟨tr, w, hd, hh⟩ := refundSurplus_frame (e := e) vm
    show Pot e W (refundSurplus e vm).1 is
    rw [hh] at hc ⊢
    exact ⟨hc, by dsimp only; omega⟩
  | depositAsset cap dst s =>
    unfold step
    rw [thenSend_fst]
    obtain ⟨l, hh⟩ := depositAll_frame (e := e) dst (taken cap vm.holding) { vm with holding := remaining cap vm.holding }
    rw [hh]
    exact keep _ rfl rfl rfl rfl
  | transferAsset as dst s =>
    refine withOrigin_elim (P := fun r => Pot e W r.1 is) vm _ (keep _ rfl rfl rfl rfl) (fun o' ho => ?_)
    rw [thenSend_fst]
    obtain ⟨l, hh⟩ := transferAll_frame (e := e) o' dst as vm
    rw [hh]
    exact keep _ rfl rfl rfl rfl
  | leave cap s =>
    unfold step
    rw [thenSend_fst]
    exact keep _ rfl rfl rfl rfl
  | transact k l a call =>
    refine withOrigin_elim (P := fun r => Pot e W r.1 is) vm _ (keep _ rfl rfl rfl rfl) (fun o' ho => ?_)
    cases hc : convertOrigin e o' k with
    | none => exact keep _ rfl rfl rfl rfl
    | some lo =>
      dsimp only
      split
      · have hw : (Instr.weight e.base (.transact k l a call)).rt = e.base.rt + l.rt := rfl
        rw [hw] at h2
        refine ⟨?_, ?_⟩
        · show vm.refunded.rt ≤ vm.surplus.rt + (l.rt - a.rt)
          omega
        · show vm.surplus.rt + (l.rt - a.rt) + wt e is + wt e vm.handler + wt e vm.appendix ≤ W
          omega
      · exact keep _ rfl rfl rfl rfl
  | queryResponse id q => exact withOrigin_elim (P := fun r => Pot e W r.1 is) vm _ (keep _ rfl rfl rfl rfl) (fun o' ho => keep _ rfl rfl rfl rfl)
  | subscribe => exact withOrigin_elim (P := fun r => Pot e W r.1 is) vm _ (keep _ rfl rfl rfl rfl) (fun o' ho => keep _ rfl rfl rfl rfl)
  | unsubscribe => exact withOrigin_elim (P := fun r => Pot e W r.1 is) vm _ (keep _ rfl rfl rfl rfl) (fun o' ho => keep _ rfl rfl rfl rfl)
  | setHandler js =>
    have hw : (Instr.weight e.base (.setHandler js)).rt = e.base.rt + wt e js := by rw [Instr.weight]; rfl
    rw [hw] at h2
    refine ⟨?_, ?_⟩
    · show vm.refunded.rt ≤ vm.surplus.rt + wt e vm.handler
      omega
    · show vm.surplus.rt + wt e vm.handler + wt e is + wt e js + wt e vm.appendix ≤ W
      omega
  | setAppendix js =>
    have hw : (Instr.weight e.base (.setAppendix js)).rt = e.base.rt + wt e js := by rw [Instr.weight]; rfl
    rw [hw] at h2
    refine ⟨?_, ?_⟩
    · show vm.refunded.rt ≤ vm.surplus.rt + wt e vm.appendix
      omega
    · show vm.surplus.rt + wt e vm.appendix + wt e is + wt e vm.handler + wt e js ≤ W
      omega
  | other b => cases b <;> exact keep _ rfl rfl rfl rfl

/-- A step does not add units, unless the origin is a reserve or the trader refunds too much. -/
theorem step_fine {W x n : Nat} {o : Loc} {log0 : List (LocalOrigin × Nat)} (vm : Vm) (i : Instr) (is : List Instr)
    (hp : Pot e W vm (i :: is)) (ha : Acts e o log0 vm) (hr : NotReserve e o x) (hb : Bought W vm ∨ vm.trader.asset = none)
    (hf : Fine e x n vm) : Fine e x n (step e vm i).1 := by
  cases i with
  | withdraw as =>
    exact withOrigin_elim (P := fun r => Fine e x n r.1) vm _ hf (fun o' ho => withdrawAll_fine x n o' as vm hf)
  | reserveDeposited as =>
    exact withOrigin_elim (P := fun r => Fine e x n r.1) vm _ hf
      (fun o' ho => receiveAll_fine x n (hr o' (ha.1 _ ho)) as vm hf)
  | teleported as =>
    refine withOrigin_elim (P := fun r => Fine e x n r.1) vm _ hf (fun o' ho => ?_)
    split <;> exact hf
  | claim as =>
    refine withOrigin_elim (P := fun r => Fine e x n r.1) vm _ hf (fun o' ho => ?_)
    split
    · rename_i hany
      have h1 := trappedIn_erase (e := e) x o' as vm.traps hany
      have h2 := subsumeAll_units (e := e) x as { vm with traps := vm.traps.eraseP (sameTrap o' as) }
      obtain ⟨hd, hh⟩ := subsumeAll_frame (e := e) as { vm with traps := vm.traps.eraseP (sameTrap o' as) }
      refine ⟨by rw [hh]; exact hf.1, h2.trans ?_⟩
      have := hf.2
      unfold Vm.units at this ⊢
      dsimp only
      omega
    · exact hf
  | clearOrigin => exact hf
  | descend js =>
    refine withOrigin_elim (P := fun r => Fine e x n r.1) vm _ hf (fun o' ho => ?_)
    split <;> exact hf
  | buy f l =>
    obtain ⟨tr, hd, hh⟩ := buyExecution_frame (e := e) vm f l
    refine ⟨?_, (buyExecution_units x vm f l).trans hf.2⟩
    show (buyExecution e vm f l).1.ledger.WF
    rw [hh]
    exact hf.1
  | refundSurplus =>
    obtain ⟨c1, c2, -⟩ := refundSurplus_cases (e := e) x vm _ hp
    obtain ⟨tr, w, hd, hh⟩ := refundSurplus_frame (e := e) vm
    refine ⟨?_, ?_⟩
    · show (refundSurplus e vm).1.ledger.WF
      rw [hh]
      exact hf.1
    · show (refundSurplus e vm).1.units e x ≤ n
      have := hf.2
      rcases hb with hb | hb
      · have := (c1 hb).2
        omega
      · have := (c2 hb).2
        omega
  | depositAsset cap dst s =>
    unfold step
    rw [thenSend_fst]
    refine depositAll_fine x n dst _ _ hf.1 ?_
    have h1 := heldIn_split (e := e) x cap vm.holding
    have := hf.2
    unfold Vm.units at this ⊢
    dsimp only
    omega
  | transferAsset as dst s =>
    refine withOrigin_elim (P := fun r => Fine e x n r.1) vm _ hf (fun o' ho => ?_)
    rw [thenSend_fst]
    exact transferAll_fine x n o' dst as vm hf
  | leave cap s =>
    unfold step
    rw [thenSend_fst]
    refine ⟨hf.1, ?_⟩
    have h1 := heldIn_split (e := e) x cap vm.holding
    have := hf.2
    unfold Vm.units at this ⊢
    dsimp only
    omega
  | transact k l a call =>
    refine withOrigin_elim (P := fun r => Fine e x n r.1) vm _ hf (fun o' ho => ?_)
    cases hc : convertOrigin e o' k with
    | none => exact hf
    | some lo => dsimp only; split <;> exact hf
  | queryResponse id q => exact withOrigin_elim (P := fun r => Fine e x n r.1) vm _ hf (fun o' ho => hf)
  | subscribe => exact withOrigin_elim (P := fun r => Fine e x n r.1) vm _ hf (fun o' ho => hf)
  | unsubscribe => exact withOrigin_elim (P := fun r => Fine e x n r.1) vm _ hf (fun o' ho => hf)
  | setHandler js => exact hf
  | setAppendix js => exact hf
  | other b => cases b <;> exact hf

/-- Which parts of the state an instruction other than a purchase or a refund leaves alone. -/
theorem step_trader (vm : Vm) (i : Instr) (h1 : ∀ f l, i ≠ .buy f l) (h2 : i ≠ .refundSurplus) :
    (step e vm i).1.trader = vm.trader ∧ (step e vm i).1.refunded = vm.refunded := by
  cases i with
  | withdraw as =>
    refine withOrigin_elim (P := fun r => r.1.trader = vm.trader ∧ r.1.refunded = vm.refunded) vm _ ⟨rfl, rfl⟩ (fun o' ho => ?_)
    obtain ⟨l, hd, hh⟩ := withdrawAll_frame (e := e) o' as vm
    rw [hh]
    exact ⟨rfl, rfl⟩
  | reserveDeposited as =>
    refine withOrigin_elim (P := fun r => r.1.trader = vm.trader ∧ r.1.refunded = vm.refunded) vm _ ⟨rfl, rfl⟩ (fun o' ho => ?_)
    obtain ⟨hd, hh⟩ := receiveAll_frame (e := e) o' as vm
    rw [hh]
    exact ⟨rfl, rfl⟩
  | teleported as =>
    refine withOrigin_elim (P := fun r => r.1.trader = vm.trader ∧ r.1.refunded = vm.refunded) vm _ ⟨rfl, rfl⟩ (fun o' ho => ?_)
    split <;> exact ⟨rfl, rfl⟩
  | claim as =>
    refine withOrigin_elim (P := fun r => r.1.trader = vm.trader ∧ r.1.refunded = vm.refunded) vm _ ⟨rfl, rfl⟩ (fun o' ho => ?_)
    split
    · obtain ⟨hd, hh⟩ := subsumeAll_frame (e := e) as { vm with traps := vm.traps.eraseP (sameTrap o' as) }
      rw [hh]
      exact ⟨rfl, rfl⟩
    · exact ⟨rfl, rfl⟩
  | clearOrigin => exact ⟨rfl, rfl⟩
  | descend js =>
    refine withOrigin_elim (P := fun r => r.1.trader = vm.trader ∧ r.1.refunded = vm.refunded) vm _ ⟨rfl, rfl⟩ (fun o' ho => ?_)
    split <;> exact ⟨rfl, rfl⟩
  | buy f l => exact absurd rfl (h1 f l)
  | refundSurplus => exact absurd rfl h2
  | depositAsset cap dst s =>
    unfold step
    rw [thenSend_fst]
    obtain ⟨l, hh⟩ := depositAll_frame (e := e) dst (taken cap vm.holding) { vm with holding := remaining cap vm.holding }
    rw [hh]
    exact ⟨rfl, rfl⟩
  | transferAsset as dst s =>
    refine withOrigin_elim (P := fun r => r.1.trader = vm.trader ∧ r.1.refunded = vm.refunded) vm _ ⟨rfl, rfl⟩ (fun o' ho => ?_)
    rw [thenSend_fst]
    obtain ⟨l, hh⟩ := transferAll_frame (e := e) o' dst as vm
    rw [hh]
    exact ⟨rfl, rfl⟩
  | leave cap s =>
    unfold step
    rw [thenSend_fst]
    exact ⟨rfl, rfl⟩
  | transact k l a call =>
    refine withOrigin_elim (P := fun r => r.1.trader = vm.trader ∧ r.1.refunded = vm.refunded) vm _ ⟨rfl, rfl⟩ (fun o' ho => ?_)
    cases hc : convertOrigin e o' k with
    | none => exact ⟨rfl, rfl⟩
    | some lo => dsimp only; split <;> exact ⟨rfl, rfl⟩
  | queryResponse id q =>
    exact withOrigin_elim (P := fun r => r.1.trader = vm.trader ∧ r.1.refunded = vm.refunded) vm _ ⟨rfl, rfl⟩ (fun o' ho => ⟨rfl, rfl⟩)
  | subscribe =>
    exact withOrigin_elim (P := fun r => r.1.trader = vm.trader ∧ r.1.refunded = vm.refunded) vm _ ⟨rfl, rfl⟩ (fun o' ho => ⟨rfl, rfl⟩)
  | unsubscribe =>
    exact withOrigin_elim (P := fun r => r.1.trader = vm.trader ∧ r.1.refunded = vm.refunded) vm _ ⟨rfl, rfl⟩ (fun o' ho => ⟨rfl, rfl⟩)
  | setHandler js => exact ⟨rfl, rfl⟩
  | setAppendix js => exact ⟨rfl, rfl⟩
  | other b => cases b <;> exact ⟨rfl, rfl⟩

theorem step_bought {W : Nat} (vm : Vm) (i : Instr) (is : List Instr) (hp : Pot e W vm (i :: is)) (hb : Bought W vm) :
    Bought W (step e vm i).1 := by
  by_cases h1 : ∃ f l, i = .buy f l
  · obtain ⟨f, l, rfl⟩ := h1
    show Bought W (buyExecution e vm f l).1
    unfold buyExecution
    cases l with
    | none => exact hb
    | some w =>
      dsimp only
      cases ht : tryTake f vm.holding with
      | none => exact hb
      | some h =>
        dsimp only
        cases hbuy : buy e.fees vm.trader w [(toKey f.1, f.2)] with
        | none => exact hb.congr rfl rfl
        | some q =>
          obtain ⟨un, tr⟩ := q
          dsimp only
          obtain ⟨h', hh⟩ := subsumeAll_frame (e := e) (un.map (fun a => (ofKey a.1, a.2))) { vm with holding := h, trader := tr }
          rw [hh]
          obtain ⟨t, u, -, -, -, hc⟩ := buy_single hbuy
          rcases hc with ⟨-, -, rfl⟩ | ⟨-, -, -, rfl⟩
          · exact hb.congr rfl rfl
          · exact hb.book w t _ u h'
  · by_cases h2 : i = .refundSurplus
    · subst h2
      exact ((refundSurplus_cases (e := e) 0 vm _ hp).1 hb).1
    · obtain ⟨q1, q2⟩ := step_trader (e := e) vm i (fun f l hf => h1 ⟨f, l, hf⟩) h2
      exact hb.congr q1 q2

end Verif.Xcm
