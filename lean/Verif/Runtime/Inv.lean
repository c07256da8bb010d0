import Verif.Runtime.Lemmas

/-!
# What executions preserve
-/

namespace Verif.Runtime
open Verif

/-! ### Balances and nonces -/

/-- The parts of the state that money does not touch. -/
structure SameRest (s s' : State) : Prop where
  disP : s'.disP = s.disP
  disC : s'.disC = s.disC
  proxies : s'.proxies = s.proxies
  log : s'.log = s.log

theorem SameRest.rfl {s : State} : SameRest s s := ⟨_root_.rfl, _root_.rfl, _root_.rfl, _root_.rfl⟩

theorem SameRest.trans {s s1 s2 : State} (h : SameRest s s1) (h1 : SameRest s1 s2) : SameRest s s2 :=
  ⟨h1.disP.trans h.disP, h1.disC.trans h.disC, h1.proxies.trans h.proxies, h1.log.trans h.log⟩

theorem setBal_rest (c : Cfg) (s : State) (w v : Nat) : SameRest s (setBal c s w v) := by
  unfold setBal
  split <;> exact ⟨_root_.rfl, _root_.rfl, _root_.rfl, _root_.rfl⟩

theorem setBal_bal (c : Cfg) (s : State) (w v x : Nat) :
    (setBal c s w v).bal x = if x = w then (if v < c.ed then 0 else v) else s.bal x := by
  unfold setBal
  by_cases hx : x = w
  · subst hx
    split <;> simp_all [upd]
  · split <;> simp_all [upd]

theorem setBal_nonce (c : Cfg) (s : State) (w v x : Nat) :
    (setBal c s w v).nonce x = if x = w ∧ v < c.ed then 0 else s.nonce x := by
  unfold setBal
  by_cases hx : x = w
  · subst hx
    split <;> simp_all [upd]
  · split <;> simp_all [upd]

theorem setBal_killed (c : Cfg) (s : State) (w v x : Nat) :
    (setBal c s w v).killed x = if x = w ∧ v < c.ed then s.killed x + 1 else s.killed x := by
  unfold setBal
  by_cases hx : x = w
  · subst hx
    split <;> simp_all [upd]
  · split <;> simp_all [upd]

theorem doTransfer_cases {c : Cfg} {s s1 : State} {w d m : Nat} (h : doTransfer c s w d m = .ok s1) :
    s1 = s ∨ (w ≠ d ∧ 0 < m ∧ m ≤ s.bal w ∧ c.ed ≤ s.bal d + m ∧
      s1 = setBal c { s with bal := upd s.bal d (s.bal d + m) } w (s.bal w - m)) := by
  unfold doTransfer at h
  split at h
  · simp only [pure_ok_iff] at h
    exact Or.inl h.symm
  · rename_i hn
    simp only [bind_ok_iff, ensure_ok_iff, pure_ok_iff, exists_const] at h
    refine Or.inr ⟨fun e => hn (Or.inr e), Nat.pos_of_ne_zero fun e => hn (Or.inl e), h.1, h.2.1, h.2.2.symm⟩

theorem doTransfer_rest {c : Cfg} {s s1 : State} {w d m : Nat} (h : doTransfer c s w d m = .ok s1) :
    SameRest s s1 := by
  rcases doTransfer_cases h with rfl | ⟨-, -, -, -, rfl⟩
  · exact .rfl
  · exact SameRest.trans (s1 := { s with bal := upd s.bal d (s.bal d + m) }) ⟨rfl, rfl, rfl, rfl⟩ (setBal_rest c _ w _)

theorem doTransfer_other {c : Cfg} {s s1 : State} {w d m : Nat} (h : doTransfer c s w d m = .ok s1) {x : Nat}
    (hx : x ≠ w) : s.bal x ≤ s1.bal x ∧ s1.nonce x = s.nonce x ∧ s1.killed x = s.killed x := by
  rcases doTransfer_cases h with rfl | ⟨-, -, -, -, rfl⟩
  · exact ⟨Nat.le_refl _, rfl, rfl⟩
  · rw [setBal_bal, setBal_nonce, setBal_killed, if_neg hx, if_neg (fun e => hx e.1), if_neg (fun e => hx e.1)]
    refine ⟨?_, rfl, rfl⟩
    dsimp only
    by_cases hd : x = d
    · subst hd
      rw [upd_same]
      omega
    · rw [upd_of_ne _ _ hd]

theorem doTransfer_nonce {c : Cfg} {s s1 : State} {w d m : Nat} (h : doTransfer c s w d m = .ok s1) (x : Nat) :
    s.killed x ≤ s1.killed x ∧ (s1.killed x = s.killed x → s.nonce x ≤ s1.nonce x) := by
  rcases doTransfer_cases h with rfl | ⟨-, -, -, -, rfl⟩
  · exact ⟨Nat.le_refl _, fun _ => Nat.le_refl _⟩
  · rw [setBal_nonce, setBal_killed]
    dsimp only
    split
    · exact ⟨by omega, fun e => absurd e (by omega)⟩
    · exact ⟨Nat.le_refl _, fun _ => Nat.le_refl _⟩

theorem incNonce_eq {s s1 : State} {w : Nat} (h : incNonce s w = .ok s1) :
    s.nonce w < maxU32 ∧ s1 = { s with nonce := upd s.nonce w (s.nonce w + 1) } := by
  unfold incNonce at h
  split at h
  · rename_i hm
    cases h
    exact ⟨hm, rfl⟩
  · cases h

theorem payFee_eq {c : Cfg} {s s1 : State} {w : Nat} (h : payFee c s w = .ok s1) :
    c.callFee ≤ s.bal w ∧ s1 = { setBal c s w (s.bal w - c.callFee) with
      bal := upd (setBal c s w (s.bal w - c.callFee)).bal c.treasury
        ((setBal c s w (s.bal w - c.callFee)).bal c.treasury + c.callFee) } := by
  unfold payFee at h
  simp only [bind_ok_iff, ensure_ok_iff, pure_ok_iff, exists_const] at h
  exact ⟨h.1, h.2.symm⟩

theorem payFee_rest {c : Cfg} {s s1 : State} {w : Nat} (h : payFee c s w = .ok s1) : SameRest s s1 := by
  obtain ⟨-, rfl⟩ := payFee_eq h
  exact SameRest.trans (setBal_rest c s w (s.bal w - c.callFee)) ⟨rfl, rfl, rfl, rfl⟩

theorem incNonce_rest {s s1 : State} {w : Nat} (h : incNonce s w = .ok s1) : SameRest s s1 := by
  obtain ⟨-, rfl⟩ := incNonce_eq h
  exact ⟨rfl, rfl, rfl, rfl⟩

/-- Nonce and fee of a signature call. -/
theorem charge_other {c : Cfg} {s s1 s2 : State} {w : Nat} (h1 : incNonce s w = .ok s1) (h2 : payFee c s1 w = .ok s2)
    {x : Nat} (hx : x ≠ w) : s.bal x ≤ s2.bal x ∧ s2.nonce x = s.nonce x ∧ s2.killed x = s.killed x := by
  obtain ⟨-, rfl⟩ := incNonce_eq h1
  obtain ⟨-, rfl⟩ := payFee_eq h2
  dsimp only
  rw [setBal_nonce, setBal_killed, if_neg (fun e => hx e.1), if_neg (fun e => hx e.1)]
  dsimp only
  refine ⟨?_, upd_of_ne _ _ hx, rfl⟩
  by_cases ht : x = c.treasury
  · subst ht
    rw [upd_same, setBal_bal, if_neg hx]
    exact Nat.le_add_right _ _
  · rw [upd_of_ne _ _ ht, setBal_bal, if_neg hx]

theorem charge_nonce {c : Cfg} {s s1 s2 : State} {w : Nat} (h1 : incNonce s w = .ok s1) (h2 : payFee c s1 w = .ok s2) :
    s.killed w ≤ s2.killed w ∧ (s2.killed w = s.killed w → s2.nonce w = s.nonce w + 1) := by
  obtain ⟨-, rfl⟩ := incNonce_eq h1
  obtain ⟨-, rfl⟩ := payFee_eq h2
  dsimp only
  rw [setBal_nonce, setBal_killed]
  dsimp only
  split
  · exact ⟨by omega, fun e => absurd e (by omega)⟩
  · exact ⟨Nat.le_refl _, fun _ => upd_same _ _ _⟩

/-! ### Filters -/

theorem emergencyOk_iff (c : Cfg) (s : State) (k : Kind) : emergencyOk c s k = true ↔ ¬ SwitchedOff c s k := by
  unfold emergencyOk SwitchedOff
  cases whitelisted c.chain k <;> cases s.disP k.pallet.index <;> cases s.disC k.pallet.index (c.callIdx k) <;> simp

theorem baseFilter_iff (c : Cfg) (s : State) (k : Kind) : baseFilter c s k = true ↔ UserMay c s k := by
  unfold baseFilter UserMay
  rw [Bool.and_eq_true, Bool.or_eq_true, emergencyOk_iff]

theorem allowed_signed {c : Cfg} {s : State} {o : Origin} {k : Kind} {w : Nat} (ho : o.caller = .signed w) :
    allowed c s o k = true ↔ UserMay c s k ∧ ∀ t ∈ o.filters, t.filter c.chain k = true := by
  unfold allowed
  rw [ho, ← baseFilter_iff]
  simp

theorem userMay_congr {c : Cfg} {s s' : State} (h1 : s'.disP = s.disP) (h2 : s'.disC = s.disC) (k : Kind) :
    UserMay c s' k ↔ UserMay c s k := by
  unfold UserMay SwitchedOff
  rw [h1, h2]

theorem userMay_of_whitelisted {c : Cfg} {s : State} {k : Kind} (h : whitelisted c.chain k = true) : UserMay c s k :=
  ⟨Or.inl h, fun e => by have := e.1; rw [h] at this; cases this⟩

/-- No type but `Any` accepts the calls of the proxy pallet. -/
theorem filter_proxy {ch : Chain} {t : ProxyType} {f : Fn} (h : t.filter ch ⟨.proxy, f⟩ = true) : t = .any := by
  cases t <;> simp_all [ProxyType.filter]

/-! ### Flags -/

theorem Exec.flags {c : Cfg} {o : Origin} {s s' : State} {k : Call} (h : Exec c o s k s') :
    o.caller ≠ .root → o.caller ≠ .council → s'.disP = s.disP ∧ s'.disC = s.disC := by
  induction h with
  | leaf => exact fun _ _ => ⟨rfl, rfl⟩
  | transfer ho ht => exact fun _ _ => ⟨(doTransfer_rest ht).disP, (doTransfer_rest ht).disC⟩
  | batchNil => exact fun _ _ => ⟨rfl, rfl⟩
  | batchCons _ _ _ _ ih1 ih2 =>
    exact fun a b => ⟨(ih2 a b).1.trans (ih1 a b).1, (ih2 a b).2.trans (ih1 a b).2⟩
  | allNil => exact fun _ _ => ⟨rfl, rfl⟩
  | allCons _ _ _ _ ih1 ih2 =>
    exact fun a b => ⟨(ih2 a b).1.trans (ih1 a b).1, (ih2 a b).2.trans (ih1 a b).2⟩
  | deriv _ _ _ ih => exact fun _ _ => ih (by simp) (by simp)
  | proxyNil => exact fun _ _ => ⟨rfl, rfl⟩
  | proxy _ _ _ _ _ ih => exact fun _ _ => ih (by simp) (by simp)
  | addProxy => exact fun _ _ => ⟨rfl, rfl⟩
  | removeProxy => exact fun _ _ => ⟨rfl, rfl⟩
  | togP ho => exact fun a b => absurd ho (by simp [a, b])
  | togC ho => exact fun a b => absurd ho (by simp [a, b])
  | evmNil _ _ _ _ h1 h2 =>
    have := (incNonce_rest h1).trans (payFee_rest h2)
    exact fun _ _ => ⟨this.disP, this.disC⟩
  | evm _ _ _ _ h1 h2 _ ih =>
    have := (incNonce_rest h1).trans (payFee_rest h2)
    have i := ih (by simp) (by simp)
    exact fun _ _ => ⟨i.1.trans this.disP, i.2.trans this.disC⟩

theorem Exec.flags_signed {c : Cfg} {o : Origin} {s s' : State} {k : Call} {w : Nat} (h : Exec c o s k s')
    (ho : o.caller = .signed w) : s'.disP = s.disP ∧ s'.disC = s.disC :=
  h.flags (by simp [ho]) (by simp [ho])

/-! ### Entries pass the filters -/

/-- All that was done between two states satisfies `P`. -/
def AllDone (P : Entry → Prop) (s s' : State) : Prop := ∃ es, Did s s' es ∧ ∀ e ∈ es, P e

theorem AllDone.rfl {P : Entry → Prop} {s s' : State} (h : s'.log = s.log) : AllDone P s s' :=
  ⟨[], by simpa [Did] using h, by simp⟩

theorem AllDone.one {P : Entry → Prop} {s s1 : State} {e : Entry} (h : s1.log = s.log) (he : P e) :
    AllDone P s (logged s1 e) := ⟨[e], by simp [Did, logged, h], by simpa using he⟩

theorem AllDone.trans {P : Entry → Prop} {s s1 s2 : State} (h : AllDone P s s1) (h1 : AllDone P s1 s2) :
    AllDone P s s2 := by
  obtain ⟨es, h, hp⟩ := h
  obtain ⟨es1, h1, hp1⟩ := h1
  refine ⟨es1 ++ es, by unfold Did at *; rw [h1, h, List.append_assoc], fun e he => ?_⟩
  rcases List.mem_append.1 he with h | h
  · exact hp1 e h
  · exact hp e h

theorem AllDone.mono {P Q : Entry → Prop} {s s' : State} (h : AllDone P s s') (hq : ∀ e, P e → Q e) : AllDone Q s s' := by
  obtain ⟨es, h, hp⟩ := h
  exact ⟨es, h, fun e he => hq e (hp e he)⟩

theorem AllDone.from {P : Entry → Prop} {s s1 s' : State} (h : AllDone P s1 s') (hl : s1.log = s.log) : AllDone P s s' := by
  obtain ⟨es, h, hp⟩ := h
  exact ⟨es, by unfold Did at *; rw [h, hl], hp⟩

theorem Exec.filtered {c : Cfg} {o : Origin} {s s' : State} {k : Call} (h : Exec c o s k s') :
    ∀ w, o.caller = .signed w → allowed c s o k.kind = true →
      AllDone (fun e => UserMay c s e.kind ∧ ∀ t ∈ o.filters, t.filter c.chain e.kind = true) s s' := by
  induction h with
  | leaf => exact fun w ho ha => .one rfl ((allowed_signed ho).1 ha)
  | transfer _ ht => exact fun w ho ha => .one (doTransfer_rest ht).log ((allowed_signed ho).1 ha)
  | batchNil => exact fun _ _ _ => .rfl rfl
  | @batchCons o s k cs s1 s2 _ ha h1 h2 ih1 ih2 =>
    intro w ho hb
    have f := h1.flags_signed ho
    have hb' : allowed c s1 o (Call.batch cs).kind = true := by
      rw [allowed_signed ho] at hb ⊢
      exact ⟨(userMay_congr f.1 f.2 _).2 hb.1, hb.2⟩
    exact (ih1 w ho ha).trans ((ih2 w ho hb').mono fun e he => ⟨(userMay_congr f.1 f.2 _).1 he.1, he.2⟩)
  | allNil => exact fun _ _ _ => .rfl rfl
  | @allCons o s k cs s1 s2 _ ha h1 h2 ih1 ih2 =>
    intro w ho hb
    have f := h1.flags_signed ho
    have hb' : allowed c s1 o (Call.batchAll cs).kind = true := by
      rw [allowed_signed ho] at hb ⊢
      exact ⟨(userMay_congr f.1 f.2 _).2 hb.1, hb.2⟩
    exact (ih1 w ho ha).trans ((ih2 w ho hb').mono fun e he => ⟨(userMay_congr f.1 f.2 _).1 he.1, he.2⟩)
  | deriv ho ha _ ih => exact fun _ _ _ => ih _ rfl ha
  | proxyNil => exact fun _ _ _ => .rfl rfl
  | @proxy o s r f k w t s' _ _ _ ha _ ih =>
    intro w ho hb
    refine (ih _ rfl ha).mono fun e he => ⟨he.1, fun t ht => ?_⟩
    have := filter_proxy (((allowed_signed ho).1 hb).2 t ht)
    subst this
    rfl
  | addProxy _ => exact fun w ho ha => .one rfl ((allowed_signed ho).1 ha)
  | removeProxy _ => exact fun w ho ha => .one rfl ((allowed_signed ho).1 ha)
  | togP h => exact fun w ho => absurd h (by simp [ho])
  | togC h => exact fun w ho => absurd h (by simp [ho])
  | evmNil h => exact fun w ho => absurd h (by simp [ho])
  | evm h => exact fun w ho => absurd h (by simp [ho])

/-- Without a check of the call itself: everything below it is still checked. -/
theorem Exec.bypassed {c : Cfg} {o : Origin} {s s' : State} {k : Call} (h : Exec c o s k s') {w : Nat}
    (ho : o.caller = .signed w) (hf : o.filters = []) :
    AllDone (fun e => UserMay c s e.kind ∨ (e.kind = k.kind ∧ e.who = .signed w)) s s' := by
  by_cases ha : allowed c s o k.kind = true
  · exact (h.filtered w ho ha).mono fun e he => Or.inl he.1
  · have hw : whitelisted c.chain k.kind = false := by
      rw [← Bool.not_eq_true]
      intro hw
      exact ha ((allowed_signed ho).2 ⟨userMay_of_whitelisted hw, by simp [hf]⟩)
    cases h with
    | leaf => exact .one rfl (Or.inr ⟨rfl, ho⟩)
    | transfer _ ht => exact .one (doTransfer_rest ht).log (Or.inr ⟨rfl, ho⟩)
    | evmNil h => exact absurd h (by simp [ho])
    | evm h => exact absurd h (by simp [ho])
    | _ => simp [Call.kind, whitelisted] at hw

/-! ### Control -/

/-- A set of accounts closed under derivation and unlimited proxies. -/
def Closed (c : Cfg) (F : Nat → Prop) (s : State) : Prop :=
  ∀ a, F a → (∀ i, F (c.derive a i)) ∧ ∀ r, ⟨a, .any, 0⟩ ∈ s.proxies r → F r

theorem full_closed (c : Cfg) (s : State) (w : Nat) : Closed c (Full c s w) s :=
  fun _ h => ⟨fun i => .derived i h, fun _ hm => .proxied h hm⟩

/-- An action that is in the scope of the accounts in `F`. -/
def InScope (c : Cfg) (F : Nat → Prop) (s0 : State) (e : Entry) : Prop :=
  ∃ a, e.who = .signed a ∧ (F a ∨ ∃ b r t, F b ∧ t ≠ .any ∧ ⟨b, t, 0⟩ ∈ s0.proxies r ∧ DerivedFrom c r a ∧
    t.filter c.chain e.kind = true)

/-- What an execution for the accounts in `F` may do, when `s0` was the state at the start. -/
structure Scope (c : Cfg) (F : Nat → Prop) (s0 s s' : State) : Prop where
  done : AllDone (InScope c F s0) s s'
  /-- all other accounts lose nothing -/
  other : ∀ x, ¬ F x → s.bal x ≤ s'.bal x ∧ s'.nonce x = s.nonce x ∧ s'.killed x = s.killed x ∧
    s'.proxies x = s.proxies x
  /-- control is not extended -/
  closed : Closed c F s'

theorem Scope.rfl {c : Cfg} {F : Nat → Prop} {s0 s : State} (h : Closed c F s) : Scope c F s0 s s :=
  ⟨.rfl _root_.rfl, fun _ _ => ⟨Nat.le_refl _, _root_.rfl, _root_.rfl, _root_.rfl⟩, h⟩

theorem Scope.trans {c : Cfg} {F : Nat → Prop} {s0 s s1 s2 : State} (h : Scope c F s0 s s1) (h1 : Scope c F s0 s1 s2) :
    Scope c F s0 s s2 := by
  refine ⟨h.done.trans h1.done, fun x hx => ?_, h1.closed⟩
  obtain ⟨a1, a2, a3, a4⟩ := h.other x hx
  obtain ⟨b1, b2, b3, b4⟩ := h1.other x hx
  exact ⟨Nat.le_trans a1 b1, b2.trans a2, b3.trans a3, b4.trans a4⟩

theorem closed_of_rest {c : Cfg} {F : Nat → Prop} {s s' : State} (h : Closed c F s) (hp : s'.proxies = s.proxies) :
    Closed c F s' := by
  unfold Closed at *
  rw [hp]
  exact h

/-- Changing the proxies of an account of the set keeps the set closed. -/
theorem closed_upd {c : Cfg} {F : Nat → Prop} {s s' : State} (h : Closed c F s) {a : Nat} (ha : F a)
    (hp : ∀ x, x ≠ a → s'.proxies x = s.proxies x) : Closed c F s' := by
  intro b hb
  refine ⟨(h b hb).1, fun r hm => ?_⟩
  by_cases hr : r = a
  · exact hr ▸ ha
  · rw [hp r hr] at hm
    exact (h b hb).2 r hm

/-- An execution under a limited proxy type: no money moves and no proxies change. -/
structure Limited (c : Cfg) (r : Nat) (t : ProxyType) (s s' : State) : Prop where
  done : AllDone (fun e => ∃ a, e.who = .signed a ∧ DerivedFrom c r a ∧ t.filter c.chain e.kind = true) s s'
  bal : s'.bal = s.bal
  nonce : s'.nonce = s.nonce
  killed : s'.killed = s.killed
  proxies : s'.proxies = s.proxies

theorem Limited.rfl {c : Cfg} {r : Nat} {t : ProxyType} {s : State} : Limited c r t s s :=
  ⟨.rfl _root_.rfl, _root_.rfl, _root_.rfl, _root_.rfl, _root_.rfl⟩

theorem Limited.trans {c : Cfg} {r : Nat} {t : ProxyType} {s s1 s2 : State} (h : Limited c r t s s1)
    (h1 : Limited c r t s1 s2) : Limited c r t s s2 :=
  ⟨h.done.trans h1.done, h1.bal.trans h.bal, h1.nonce.trans h.nonce, h1.killed.trans h.killed,
    h1.proxies.trans h.proxies⟩

theorem Exec.limited {c : Cfg} {r : Nat} {t : ProxyType} (ht : t ≠ .any) {o : Origin} {s s' : State} {k : Call}
    (h : Exec c o s k s') : ∀ a, o.caller = .signed a → DerivedFrom c r a → t ∈ o.filters →
      allowed c s o k.kind = true → Limited c r t s s' := by
  induction h with
  | leaf =>
    exact fun a ho hc hf ha => ⟨.one rfl ⟨a, ho, hc, ((allowed_signed ho).1 ha).2 t hf⟩, rfl, rfl, rfl, rfl⟩
  | transfer _ _ =>
    intro a ho hc hf ha
    have := ((allowed_signed ho).1 ha).2 t hf
    cases t <;> simp_all [Call.kind, ProxyType.filter]
  | batchNil => exact fun _ _ _ _ _ => .rfl
  | @batchCons o s k cs s1 s2 _ ha h1 _ ih1 ih2 =>
    intro a ho hc hf hb
    have f := h1.flags_signed ho
    refine (ih1 a ho hc hf ha).trans (ih2 a ho hc hf ?_)
    rw [allowed_signed ho] at hb ⊢
    exact ⟨(userMay_congr f.1 f.2 _).2 hb.1, hb.2⟩
  | allNil => exact fun _ _ _ _ _ => .rfl
  | @allCons o s k cs s1 s2 _ ha h1 _ ih1 ih2 =>
    intro a ho hc hf hb
    have f := h1.flags_signed ho
    refine (ih1 a ho hc hf ha).trans (ih2 a ho hc hf ?_)
    rw [allowed_signed ho] at hb ⊢
    exact ⟨(userMay_congr f.1 f.2 _).2 hb.1, hb.2⟩
  | @deriv o s i k a' s' ho' ha _ ih =>
    intro a ho hc hf _
    rw [ho] at ho'
    cases ho'
    exact ih _ rfl (.derived i hc) hf ha
  | proxyNil => exact fun _ _ _ _ _ => .rfl
  | proxy =>
    intro a ho hc hf ha
    exact absurd (filter_proxy (((allowed_signed ho).1 ha).2 t hf)) ht
  | addProxy _ =>
    intro a ho hc hf ha
    exact absurd (filter_proxy (((allowed_signed ho).1 ha).2 t hf)) ht
  | removeProxy _ =>
    intro a ho hc hf ha
    exact absurd (filter_proxy (((allowed_signed ho).1 ha).2 t hf)) ht
  | togP h => exact fun w ho => absurd h (by simp [ho])
  | togC h => exact fun w ho => absurd h (by simp [ho])
  | evmNil h => exact fun w ho => absurd h (by simp [ho])
  | evm h => exact fun w ho => absurd h (by simp [ho])

theorem Exec.scope {c : Cfg} {F : Nat → Prop} {s0 : State} {o : Origin} {s s' : State} {k : Call} (h : Exec c o s k s') :
    ∀ a, o.caller = .signed a → F a → Closed c F s → (∀ x, ¬ F x → s.proxies x = s0.proxies x) →
      Scope c F s0 s s' := by
  induction h with
  | leaf =>
    exact fun a ho hc hs _ => ⟨.one rfl ⟨a, ho, .inl hc⟩, fun _ _ => ⟨Nat.le_refl _, rfl, rfl, rfl⟩,
      closed_of_rest hs rfl⟩
  | @transfer o s d m a' s1 ho' ht =>
    intro a ho hc hs _
    rw [ho] at ho'
    cases ho'
    have hr := doTransfer_rest ht
    refine ⟨.one hr.log ⟨a', ho, .inl hc⟩, fun x hx => ?_, closed_of_rest hs hr.proxies⟩
    have hne : x ≠ a' := fun e => hx (e ▸ hc)
    obtain ⟨b1, b2, b3⟩ := doTransfer_other ht hne
    exact ⟨b1, b2, b3, congrFun hr.proxies x⟩
  | batchNil => exact fun _ _ _ hs _ => .rfl hs
  | batchCons _ _ _ _ ih1 ih2 =>
    intro a ho hc hs hp
    have w1 := ih1 a ho hc hs hp
    exact w1.trans (ih2 a ho hc w1.closed fun x hx => (w1.other x hx).2.2.2.trans (hp x hx))
  | allNil => exact fun _ _ _ hs _ => .rfl hs
  | allCons _ _ _ _ ih1 ih2 =>
    intro a ho hc hs hp
    have w1 := ih1 a ho hc hs hp
    exact w1.trans (ih2 a ho hc w1.closed fun x hx => (w1.other x hx).2.2.2.trans (hp x hx))
  | @deriv o s i k a' s' ho' _ _ ih =>
    intro a ho hc hs hp
    rw [ho] at ho'
    cases ho'
    exact ih _ rfl ((hs a' hc).1 i) hs hp
  | proxyNil => exact fun _ _ _ hs _ => .rfl hs
  | @proxy o s r f k a' t s' ho' hm _ ha hx ih =>
    intro a ho hc hs hp
    rw [ho] at ho'
    cases ho'
    by_cases hr : F r
    · exact ih _ rfl hr hs hp
    · have ht : t ≠ .any := fun e => hr ((hs a' hc).2 r (e ▸ hm))
      have hl := hx.limited (r := r) ht r rfl .self (by simp) ha
      refine ⟨hl.done.mono fun e ⟨b, e1, e2, e3⟩ => ⟨b, e1, .inr ⟨a', r, t, hc, ht, ?_, e2, e3⟩⟩, fun x _ => ?_,
        closed_of_rest hs hl.proxies⟩
      · rw [← hp r hr]
        exact hm
      · rw [hl.bal, hl.nonce, hl.killed, hl.proxies]
        exact ⟨Nat.le_refl _, rfl, rfl, rfl⟩
  | @addProxy o s d t y a' ho' =>
    intro a ho hc hs _
    rw [ho] at ho'
    cases ho'
    have hp : ∀ x, x ≠ a' → upd s.proxies a' (⟨d, t, y⟩ :: s.proxies a') x = s.proxies x := fun x hx => upd_of_ne _ _ hx
    exact ⟨.one rfl ⟨a', ho, .inl hc⟩, fun x hx => ⟨Nat.le_refl _, rfl, rfl, hp x fun e => hx (e ▸ hc)⟩, closed_upd hs hc hp⟩
  | @removeProxy o s d t y a' ho' =>
    intro a ho hc hs _
    rw [ho] at ho'
    cases ho'
    have hp : ∀ x, x ≠ a' → upd s.proxies a' ((s.proxies a').erase ⟨d, t, y⟩) x = s.proxies x := fun x hx => upd_of_ne _ _ hx
    exact ⟨.one rfl ⟨a', ho, .inl hc⟩, fun x hx => ⟨Nat.le_refl _, rfl, rfl, hp x fun e => hx (e ▸ hc)⟩, closed_upd hs hc hp⟩
  | togP h => exact fun w ho => absurd h (by simp [ho])
  | togC h => exact fun w ho => absurd h (by simp [ho])
  | evmNil h => exact fun w ho => absurd h (by simp [ho])
  | evm h => exact fun w ho => absurd h (by simp [ho])

/-! ### Nonces -/

/-- As long as an account is not removed its nonce does not fall. -/
def NonceUp (s s' : State) (x : Nat) : Prop :=
  s.killed x ≤ s'.killed x ∧ (s'.killed x = s.killed x → s.nonce x ≤ s'.nonce x)

theorem NonceUp.rfl {s : State} {x : Nat} : NonceUp s s x := ⟨Nat.le_refl _, fun _ => Nat.le_refl _⟩

theorem NonceUp.trans {s s1 s2 : State} {x : Nat} (h : NonceUp s s1 x) (h1 : NonceUp s1 s2 x) : NonceUp s s2 x := by
  refine ⟨Nat.le_trans h.1 h1.1, fun e => ?_⟩
  have a := h.1
  have b := h1.1
  exact Nat.le_trans (h.2 (by omega)) (h1.2 (by omega))

theorem charge_up {c : Cfg} {s s1 s2 : State} {w : Nat} (h1 : incNonce s w = .ok s1) (h2 : payFee c s1 w = .ok s2)
    (x : Nat) : NonceUp s s2 x := by
  by_cases hx : x = w
  · subst hx
    obtain ⟨a, b⟩ := charge_nonce h1 h2
    exact ⟨a, fun e => by rw [b e]; omega⟩
  · obtain ⟨-, a, b⟩ := charge_other h1 h2 hx
    exact ⟨by omega, fun _ => by omega⟩

theorem Exec.nonceUp {c : Cfg} {o : Origin} {s s' : State} {k : Call} (h : Exec c o s k s') (x : Nat) :
    NonceUp s s' x := by
  induction h with
  | leaf => exact ⟨Nat.le_refl _, fun _ => Nat.le_refl _⟩
  | transfer _ ht => exact doTransfer_nonce ht x
  | batchNil => exact .rfl
  | batchCons _ _ _ _ ih1 ih2 => exact ih1.trans ih2
  | allNil => exact .rfl
  | allCons _ _ _ _ ih1 ih2 => exact ih1.trans ih2
  | deriv _ _ _ ih => exact ih
  | proxyNil => exact .rfl
  | proxy _ _ _ _ _ ih => exact ih
  | addProxy => exact ⟨Nat.le_refl _, fun _ => Nat.le_refl _⟩
  | removeProxy => exact ⟨Nat.le_refl _, fun _ => Nat.le_refl _⟩
  | togP => exact ⟨Nat.le_refl _, fun _ => Nat.le_refl _⟩
  | togC => exact ⟨Nat.le_refl _, fun _ => Nat.le_refl _⟩
  | evmNil _ _ _ _ h1 h2 => exact charge_up h1 h2 x
  | evm _ _ _ _ h1 h2 _ ih => exact (charge_up h1 h2 x).trans ih

/-! ### Toggles -/

/-- The flags are what the events say, and only governance makes such events. -/
def Parity (s s' : State) : Prop :=
  ∃ es, Did s s' es ∧ (∀ p, s'.disP p = (s.disP p ^^ decide (palletToggles p es % 2 = 1))) ∧
    (∀ p i, s'.disC p i = (s.disC p i ^^ decide (callToggles p i es % 2 = 1))) ∧
    ∀ e ∈ es, e.kind.pallet = .emergencyShutdown → e.kind.fn.modelled = true → e.who = .root ∨ e.who = .council

theorem parity_add (b : Bool) (m n : Nat) :
    ((b ^^ decide (m % 2 = 1)) ^^ decide (n % 2 = 1)) = (b ^^ decide ((n + m) % 2 = 1)) := by
  rcases Nat.mod_two_eq_zero_or_one m with h | h <;> rcases Nat.mod_two_eq_zero_or_one n with h1 | h1 <;>
    simp [Nat.add_mod, h, h1]

theorem Parity.rfl {s s' : State} (h : SameRest s s') : Parity s s' :=
  ⟨[], by simp [Did, h.log], fun p => by simp [palletToggles, h.disP], fun p i => by simp [callToggles, h.disC], by simp⟩

theorem Parity.trans {s s1 s2 : State} (h : Parity s s1) (h1 : Parity s1 s2) : Parity s s2 := by
  obtain ⟨es, hd, hp, hc, ho⟩ := h
  obtain ⟨es1, hd1, hp1, hc1, ho1⟩ := h1
  refine ⟨es1 ++ es, by unfold Did at *; rw [hd1, hd, List.append_assoc], fun p => ?_, fun p i => ?_, fun e he => ?_⟩
  · rw [hp1, hp, parity_add]
    unfold palletToggles
    rw [List.countP_append]
  · rw [hc1, hc, parity_add]
    unfold callToggles
    rw [List.countP_append]
  · rcases List.mem_append.1 he with h | h
    · exact ho1 e h
    · exact ho e h

/-- An event that is not a toggle. -/
theorem Parity.one {s s1 : State} {e : Entry} (h1 : s1.disP = s.disP) (h2 : s1.disC = s.disC) (h3 : s1.log = s.log)
    (he : e.kind.pallet = .emergencyShutdown → e.kind.fn.modelled = false) : Parity s (logged s1 e) := by
  have n1 : e.kind ≠ ⟨.emergencyShutdown, .togglePallet⟩ := fun k => by rw [k] at he; exact absurd (he _root_.rfl) (by decide)
  have n2 : e.kind ≠ ⟨.emergencyShutdown, .toggleCall⟩ := fun k => by rw [k] at he; exact absurd (he _root_.rfl) (by decide)
  refine ⟨[e], by simp [Did, logged, h3], fun p => ?_, fun p i => ?_, ?_⟩
  · simp [palletToggles, logged, h1, n1]
  · simp [callToggles, logged, h2, n2]
  · intro e' he' hp hm
    simp only [List.mem_singleton] at he'
    subst he'
    rw [he hp] at hm
    cases hm

theorem Exec.parity {c : Cfg} {o : Origin} {s s' : State} {k : Call} (h : Exec c o s k s') : Parity s s' := by
  induction h with
  | leaf hk => exact .one rfl rfl rfl fun _ => hk
  | transfer _ ht => exact .one (doTransfer_rest ht).disP (doTransfer_rest ht).disC (doTransfer_rest ht).log (by simp)
  | batchNil => exact .rfl .rfl
  | batchCons _ _ _ _ ih1 ih2 => exact ih1.trans ih2
  | allNil => exact .rfl .rfl
  | allCons _ _ _ _ ih1 ih2 => exact ih1.trans ih2
  | deriv _ _ _ ih => exact ih
  | proxyNil => exact .rfl .rfl
  | proxy _ _ _ _ _ ih => exact ih
  | addProxy => exact .one rfl rfl rfl (by simp)
  | removeProxy => exact .one rfl rfl rfl (by simp)
  | @togP o s p ho =>
    refine ⟨[_], rfl, fun q => ?_, fun q i => ?_, fun e he _ _ => ?_⟩
    · by_cases hq : q = p
      · subst hq
        simp [logged, palletToggles]
      · have : ¬ p = q := fun e => hq e.symm
        simp [logged, palletToggles, upd_of_ne _ _ hq, this]
    · simp [logged, callToggles]
    · simp only [List.mem_singleton] at he
      subst he
      exact ho
  | @togC o s p i ho =>
    refine ⟨[_], rfl, fun q => ?_, fun q j => ?_, fun e he _ _ => ?_⟩
    · simp [logged, palletToggles]
    · by_cases hq : q = p
      · subst hq
        by_cases hj : j = i
        · subst hj
          simp [logged, callToggles]
        · have : ¬ i = j := fun e => hj e.symm
          simp [logged, callToggles, upd_of_ne _ _ hj, this]
      · have : ¬ p = q := fun e => hq e.symm
        simp [logged, callToggles, upd_of_ne _ _ hq, this]
    · simp only [List.mem_singleton] at he
      subst he
      exact ho
  | evmNil _ _ _ _ h1 h2 => exact .rfl ((incNonce_rest h1).trans (payFee_rest h2))
  | evm _ _ _ _ h1 h2 _ ih => exact (Parity.rfl ((incNonce_rest h1).trans (payFee_rest h2))).trans ih

end Verif.Runtime
