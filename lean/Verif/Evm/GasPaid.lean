import Verif.Evm.GasProps

/-!
# Is everything paid for? (C214), with the non-vacuity of C213
-/

set_option linter.unusedSimpArgs false
set_option linter.unusedVariables false

namespace Verif.Evm
open Verif

theorem outWord_length (n : Nat) : (outWord n).length = 32 := by
  rw [outWord_eq]
  simp [Abi.encUint, beBytes_length]

/-- The price of all logs of a call. -/
def logsPrice {S : Type} (o : Out S) : Nat := (o.logs.map Log.price).sum

theorem logsPrice_nil {S : Type} (s : S) (r : List Byte) : logsPrice ⟨s, r, []⟩ = 0 := rfl

theorem logsPrice_three {S : Type} (s : S) (r : List Byte) (adr : Nat) (e : Event) (x y n : Nat) :
    logsPrice ⟨s, r, [⟨adr, e, [x, y], outWord n⟩]⟩ = 1756 := by
  unfold logsPrice Log.price
  simp only [List.map_cons, List.map_nil, List.sum_cons, List.sum_nil, List.length_cons, List.length_nil, outWord_length]; omega

theorem logsPrice_two {S : Type} (s : S) (r : List Byte) (adr : Nat) (e : Event) (x n : Nat) :
    logsPrice ⟨s, r, [⟨adr, e, [x], outWord n⟩]⟩ = 1381 := by
  unfold logsPrice Log.price
  simp only [List.map_cons, List.map_nil, List.sum_cons, List.sum_nil, List.length_cons, List.length_nil, outWord_length]; omega

namespace Bal
variable {k : Rates} {rt : Rt} {m : Meta} {cx : Ctx} {input : List Byte} {s : State} {o : Out State} {g l : Nat}

open Classical in
/-- What a call should pay at least: its logs, one storage write for each of the two maps it changed, and the dispatched
transfer if balances changed. -/
noncomputable def due (k : Rates) (s : State) (o : Out State) : Nat :=
  logsPrice o + (if o.st.approves = s.approves then 0 else k.write) + (if o.st.nonces = s.nonces then 0 else k.write) +
    (if o.st.cur = s.cur then 0 else k.call .native)

/-- **C214 (statement, native token).** Every successful call pays for its logs, the storage entries it writes and the calls it
dispatches. -/
def C214_statement : Prop :=
  ∀ (k : Rates) (rt : Rt) (m : Meta) (cx : Ctx) (input : List Byte) (s : State) (o : Out State) (g l : Nat),
    (mExecute k rt m cx input s).run g = .done o l → due k s o + l ≤ g

theorem spend_keeps {s s1 : State} {c ow a : Nat} (h : spend s c ow a = .ok s1) : s1.nonces = s.nonces ∧ s1.cur = s.cur := by
  unfold spend at h
  split at h
  · simp only [bind_ok_iff, okOr_ok_iff, csub_ok_iff, pure_ok_iff] at h
    obtain ⟨_, _, _, _, rfl⟩ := h
    exact ⟨rfl, rfl⟩
  · cases h; exact ⟨rfl, rfl⟩

open Classical in
theorem due_le {n1 n2 n3 n4 : Nat} (h1 : logsPrice o ≤ n1) (h2 : o.st.approves = s.approves ∨ k.write ≤ n2)
    (h3 : o.st.nonces = s.nonces ∨ k.write ≤ n3) (h4 : o.st.cur = s.cur ∨ k.call .native ≤ n4) :
    due k s o ≤ n1 + n2 + n3 + n4 := by
  unfold due
  have a2 : (if o.st.approves = s.approves then 0 else k.write) ≤ n2 := by
    split
    · omega
    · rcases h2 with h | h
      · contradiction
      · exact h
  have a3 : (if o.st.nonces = s.nonces then 0 else k.write) ≤ n3 := by
    split
    · omega
    · rcases h3 with h | h
      · contradiction
      · exact h
  have a4 : (if o.st.cur = s.cur then 0 else k.call .native) ≤ n4 := by
    split
    · omega
    · rcases h4 with h | h
      · contradiction
      · exact h
  omega

/-- **C214 (native token, partial).** Every function except `permit` pays for its logs, the storage entries it writes and the
transfer it dispatches. -/
theorem C214_native_partial (hf : actionOf input ≠ .permit) (h : (mExecute k rt m cx input s).run g = .done o l) :
    due k s o + l ≤ g := by
  obtain ⟨h1, h2⟩ := C213_native_exact h
  suffices hd : due k s o ≤ price k (actionOf input) by omega
  have hv : ∀ (r : List Byte), due k s ⟨s, r, []⟩ = 0 := by
    intro r
    have := due_le (k := k) (s := s) (o := ⟨s, r, []⟩) (n1 := 0) (n2 := 0) (n3 := 0) (n4 := 0) (Nat.le_refl _) (.inl rfl)
      (.inl rfl) (.inl rfl)
    omega
  unfold execute at h1
  cases ha : actionOf input <;> rw [ha] at h1 hf <;> simp only [price]
  case permit => exact absurd rfl hf
  case totalSupply =>
    simp only [totalSupply, bind_ok_iff, pure_ok_iff] at h1
    obtain ⟨_, _, _, _, rfl⟩ := h1
    rw [hv]; omega
  case balanceOf =>
    simp only [balanceOf, bind_ok_iff, pure_ok_iff, Prod.exists] at h1
    obtain ⟨_, _, _, _, _, _, _, rfl⟩ := h1
    rw [hv]; omega
  case allowance =>
    simp only [allowance, bind_ok_iff, pure_ok_iff, Prod.exists] at h1
    obtain ⟨_, _, _, _, _, _, _, _, _, _, rfl⟩ := h1
    rw [hv]; omega
  case nonces =>
    simp only [noncesOf, bind_ok_iff, pure_ok_iff, Prod.exists] at h1
    obtain ⟨_, _, _, _, _, rfl⟩ := h1
    rw [hv]; omega
  case domainSeparator => simp only [pure_ok_iff] at h1; subst h1; rw [hv]; omega
  case name => simp only [pure_ok_iff] at h1; subst h1; rw [hv]
  case symbol => simp only [pure_ok_iff] at h1; subst h1; rw [hv]
  case decimals => simp only [pure_ok_iff] at h1; subst h1; rw [hv]
  case approve =>
    simp only [approve, bind_ok_iff, pure_ok_iff, Prod.exists] at h1
    obtain ⟨_, _, _, _, _, _, _, _, _, _, rfl⟩ := h1
    refine le_trans (due_le (n1 := 1756) (n2 := k.write) (n3 := 0) (n4 := 0) (le_of_eq (logsPrice_three ..))
      (.inr (Nat.le_refl _)) (.inl rfl) (.inl rfl)) (by omega)
  case transfer =>
    simp only [transfer, bind_ok_iff, pure_ok_iff, Prod.exists] at h1
    obtain ⟨_, _, _, _, _, _, _, _, _, _, _, _, _, _, rfl⟩ := h1
    refine le_trans (due_le (n1 := 1756) (n2 := 0) (n3 := 0) (n4 := k.call .native) (le_of_eq (logsPrice_three ..))
      (.inl rfl) (.inl rfl) (.inr (Nat.le_refl _))) (by omega)
  case transferFrom =>
    simp only [transferFrom, bind_ok_iff, pure_ok_iff, Prod.exists] at h1
    obtain ⟨_, _, _, _, _, _, _, _, _, _, _, _, _, _, _, s1, hs, _, _, rfl⟩ := h1
    refine le_trans (due_le (n1 := 1756) (n2 := k.write) (n3 := 0) (n4 := k.call .native) (le_of_eq (logsPrice_three ..))
      (.inr (Nat.le_refl _)) (.inl (spend_keeps hs).1) (.inr (Nat.le_refl _))) (by omega)
  case deposit =>
    simp only [deposit, bind_ok_iff, pure_ok_iff, ensure_ok_iff, exists_const] at h1
    obtain ⟨_, _, _, _, _, _, rfl⟩ := h1
    refine le_trans (due_le (n1 := 1381) (n2 := 0) (n3 := 0) (n4 := k.call .native) (le_of_eq (logsPrice_two ..))
      (.inl rfl) (.inl rfl) (.inr (Nat.le_refl _))) (by omega)
  case withdraw =>
    simp only [withdraw, bind_ok_iff, pure_ok_iff, ensure_ok_iff, exists_const, Prod.exists] at h1
    obtain ⟨_, _, _, _, _, _, _, rfl⟩ := h1
    refine le_trans (due_le (n1 := 1381) (n2 := 0) (n3 := 0) (n4 := 0) (le_of_eq (logsPrice_two ..))
      (.inl rfl) (.inl rfl) (.inl rfl)) (by omega)

/-- **C214 (native token, why).** Whatever a successful permit writes, on Parallel it uses 1000 gas: one storage read.  An
`approve`, which writes one entry less, uses 5756. -/
theorem C214_permit_price (ha : actionOf input = .permit)
    (h : (mExecute parallelRates rt m cx input s).run g = .done o l) :
    g - l = 1000 ∧ price parallelRates .approve = 5756 := by
  have := (C213_native_exact h).2
  rw [ha] at this
  have e : price parallelRates .permit = 1000 := by decide
  exact ⟨by omega, by decide⟩

theorem exPermit : ∃ o, execute exRt exMeta (exCx 77) (permitCall 2 5 1000 9 27 7 8 ++ []) exSt = .ok o := by
  have hs : ∀ d, signerOf exRt.crypto 7 8 27 d = some 2 := fun d => by
    unfold signerOf
    have e : exRt.crypto.recover 7 8 27 d = some [1] := by
      show (if (7 : Nat) = 7 ∧ (8 : Nat) = 8 ∧ (27 : Nat) = 27 then some [(1 : Byte)] else none) = _
      exact if_pos ⟨rfl, rfl, rfl⟩
    rw [e]
    decide +kernel
  exact (C128_permit_when exRt exMeta (exCx 77) exSt 2 5 1000 9 27 7 8 [] exPermitArgs (by decide)).2 ⟨by decide, by decide, hs _⟩

/-- **C214 (refuted).** A permit of the native token writes a nonce and an allowance and emits a log for the price of one
storage read. -/
theorem C214_refuted : ¬ C214_statement := by
  intro H
  obtain ⟨o, ho⟩ := exPermit
  have hact : actionOf (permitCall 2 5 1000 9 27 7 8 ++ []) = .permit := by
    unfold permitCall; exact action_call _ _ _ (by decide)
  have hr := C213_native_enough (k := parallelRates) (fun _ => rfl) ho 1000
  have hp : price parallelRates (actionOf (permitCall 2 5 1000 9 27 7 8 ++ [])) = 1000 := by rw [hact]; decide
  rw [hp, if_pos (Nat.le_refl _)] at hr
  have hd := H _ _ _ _ _ _ _ _ _ hr
  obtain ⟨_, _, hl⟩ := C128_permit_what exRt exMeta (exCx 77) exSt 2 5 1000 9 27 7 8 [] exPermitArgs o ho
  have : logsPrice o = 1756 := by
    unfold logsPrice
    rw [hl, ← outWord_eq]
    exact logsPrice_three o.st [] _ _ _ _ _
  unfold due at hd
  omega

/-- Non-vacuity of C213: with 1756 + 13658 gas account 1 can transfer, with one less it cannot. -/
example : ∃ o, (mExecute parallelRates exRt exMeta (exCx 1) (callOf 0xa9059cbb [(20, 3), (32, 50)] ++ []) exSt).run 15414 =
      .done o 0 ∧
    (mExecute parallelRates exRt exMeta (exCx 1) (callOf 0xa9059cbb [(20, 3), (32, 50)] ++ []) exSt).run 15413 =
      .outOfGas := by
  have hz : Sized (callOf 0xa9059cbb [(20, 3), (32, 50)] ++ []) := by
    unfold Sized callOf
    rw [List.append_nil, List.length_append, beBytes_length]
    simp only [List.flatMap_cons, List.flatMap_nil, List.length_append, List.length_nil, Abi.encUint,
      List.length_replicate, beBytes_length]
    decide
  obtain ⟨o, ho⟩ : ∃ o, execute exRt exMeta (exCx 1) (callOf 0xa9059cbb [(20, 3), (32, 50)] ++ []) exSt = .ok o :=
    (C125_transfer_when exRt exMeta (exCx 1) exSt [] 3 50 (by decide) (by decide) hz).2
      ⟨rfl, by decide, .inr (.inr ⟨by decide, by decide, by decide, fun h => by cases h⟩)⟩
  have hact : actionOf (callOf 0xa9059cbb [(20, 3), (32, 50)] ++ []) = .transfer := action_call _ _ _ (by decide)
  have hp : price parallelRates .transfer = 15414 := by decide
  refine ⟨o, ?_, ?_⟩
  · rw [C213_native_enough (fun _ => rfl) ho, hact, hp, if_pos (Nat.le_refl _)]
  · rw [C213_native_enough (fun _ => rfl) ho, hact, hp, if_neg (by decide)]

end Bal

namespace Ast
variable {k : Rates} {rt : Rt} {cx : Ctx} {input : List Byte} {s : State} {id : Nat} {a : Asset} {f : Action} {o : Out State}
  {g l : Nat}

theorem approveInner_nonces {ow sp v : Nat} {s s' : State} (h : approveInner rt s id ow sp v = .ok s') :
    s'.nonces = s.nonces := by
  simp only [approveInner, bind_ok_iff, dispatch_ok_iff] at h
  obtain ⟨s1, h1, _, h2⟩ := h
  have e1 : s1.nonces = s.nonces := by
    unfold cancelOld at h1
    split at h1
    · simp only [dispatch_ok_iff, cancelApproval, bind_ok_iff, okOr_ok_iff, pure_ok_iff] at h1
      obtain ⟨_, _, _, _, _, rfl⟩ := h1
      rfl
    · cases h1; rfl
  rw [← e1]
  simp only [approveTransfer, bind_ok_iff, pure_ok_iff] at h2
  obtain ⟨_, _, _, _, rfl⟩ := h2
  rfl

theorem transferAsset_nonces {src dst x : Nat} {s s' : State} (h : transferAsset s id src dst x = .ok s') :
    s'.nonces = s.nonces := by
  unfold transferAsset at h
  split at h
  · cases h; rfl
  · simp only [bind_ok_iff, pure_ok_iff] at h
    obtain ⟨_, _, _, _, rfl⟩ := h
    rfl

theorem moveFrom_nonces {c ow d x : Nat} {s' : State} (h : moveFrom rt s id c ow d x = .ok s') : s'.nonces = s.nonces := by
  unfold moveFrom at h
  split at h
  · simp only [dispatch_ok_iff, transferApproved, bind_ok_iff, pure_ok_iff] at h
    obtain ⟨_, _, _, p, _, _, _, s1, h1, rfl⟩ := h
    have e : (settle s1 id ow c p x).nonces = s1.nonces := by
      unfold settle
      split <;> rfl
    rw [e]
    exact transferAsset_nonces h1
  · exact transferAsset_nonces ((dispatch_ok_iff).1 h).2

theorem act_paid (hf : f ≠ .permit) (h : act rt cx s id a input f = .ok o) :
    logsPrice o ≤ price k rt cx s id o f ∧ o.st.nonces = s.nonces ∧
    ((o.st.assets ≠ s.assets ∨ o.st.approvals ≠ s.approvals ∨ o.st.cur ≠ s.cur) →
      ∃ d, logsPrice o + k.call d ≤ price k rt cx s id o f) := by
  have view : ∀ {r : List Byte} {n : Nat} {f : Action}, price k rt cx s id ⟨s, r, []⟩ f = n →
      logsPrice (⟨s, r, []⟩ : Out State) ≤ price k rt cx s id ⟨s, r, []⟩ f ∧ s.nonces = s.nonces ∧
      ((s.assets ≠ s.assets ∨ s.approvals ≠ s.approvals ∨ s.cur ≠ s.cur) →
        ∃ d, logsPrice (⟨s, r, []⟩ : Out State) + k.call d ≤ price k rt cx s id ⟨s, r, []⟩ f) := by
    intro r n f _
    exact ⟨Nat.zero_le _, rfl, fun h => by rcases h with h | h | h <;> exact absurd rfl h⟩
  cases f
  case permit => exact absurd rfl hf
  case totalSupply => simp only [act, pure_ok_iff] at h; subst h; exact view rfl
  case name => simp only [act, pure_ok_iff] at h; subst h; exact view rfl
  case symbol => simp only [act, pure_ok_iff] at h; subst h; exact view rfl
  case decimals => simp only [act, pure_ok_iff] at h; subst h; exact view rfl
  case minimumBalance => simp only [act, pure_ok_iff] at h; subst h; exact view rfl
  case domainSeparator => simp only [act, pure_ok_iff] at h; subst h; exact view rfl
  case balanceOf =>
    simp only [act, balanceOf, bind_ok_iff, pure_ok_iff, Prod.exists] at h
    obtain ⟨_, _, _, _, _, _, _, rfl⟩ := h
    exact view rfl
  case allowance =>
    simp only [act, allowance, bind_ok_iff, pure_ok_iff, Prod.exists] at h
    obtain ⟨_, _, _, _, _, _, _, _, _, _, rfl⟩ := h
    exact view rfl
  case nonces =>
    simp only [act, noncesOf, bind_ok_iff, pure_ok_iff, Prod.exists] at h
    obtain ⟨_, _, _, _, _, rfl⟩ := h
    exact view rfl
  case approve =>
    simp only [act, approve, bind_ok_iff, pure_ok_iff, Prod.exists] at h
    obtain ⟨_, _, _, _, _, _, _, _, _, _, s', hs, rfl⟩ := h
    rw [logsPrice_three]
    refine ⟨by simp only [price]; omega, approveInner_nonces hs, fun _ => ⟨.approveTransfer, by simp only [price]; omega⟩⟩
  case transfer =>
    simp only [act, transfer, bind_ok_iff, pure_ok_iff, Prod.exists, dispatch_ok_iff] at h
    obtain ⟨_, _, _, _, _, _, _, _, _, _, _, _, s', ⟨_, hs⟩, rfl⟩ := h
    rw [logsPrice_three]
    refine ⟨by simp only [price]; omega, transferAsset_nonces hs, fun _ => ⟨.transfer, by simp only [price]; omega⟩⟩
  case transferFrom =>
    simp only [act, transferFrom, bind_ok_iff, pure_ok_iff, Prod.exists] at h
    obtain ⟨_, _, _, _, _, _, _, _, _, _, _, _, _, _, _, s', hs, rfl⟩ := h
    rw [logsPrice_three]
    refine ⟨by simp only [price]; omega, moveFrom_nonces hs, fun _ => ?_⟩
    simp only [price]
    split
    · exact ⟨.transfer, by omega⟩
    · exact ⟨.transferApproved, by omega⟩
  case mint =>
    simp only [act, mint, bind_ok_iff, pure_ok_iff, Prod.exists] at h
    obtain ⟨_, _, _, _, _, _, _, _, _, _, _, _, _, _, rfl⟩ := h
    exact ⟨Nat.zero_le _, rfl, fun _ => ⟨.mint, by rw [logsPrice_nil]; simp only [price]; omega⟩⟩
  case burn =>
    simp only [act, burn, bind_ok_iff, pure_ok_iff, Prod.exists] at h
    obtain ⟨_, _, _, _, _, _, _, _, _, _, _, _, _, _, rfl⟩ := h
    exact ⟨Nat.zero_le _, rfl, fun _ => ⟨.burn, by rw [logsPrice_nil]; simp only [price]; omega⟩⟩

/-- **C214 (assets, partial).** Every function of an asset's contract except `permit` pays for its logs, writes nothing itself,
and if it changed anything it has paid for a dispatched call too. -/
theorem C214_asset_partial {p : Met (Out State)} {n : Nat} (hn : readSelector input = .ok n)
    (hf : Action.ofSelector n ≠ some .permit) (hp : mExecute k rt cx input s = some p) (h : p.run g = .done o l) :
    logsPrice o + l ≤ g ∧ o.st.nonces = s.nonces ∧
    ((o.st.assets ≠ s.assets ∨ o.st.approvals ≠ s.approvals ∨ o.st.cur ≠ s.cur) → ∃ d, logsPrice o + k.call d + l ≤ g) := by
  obtain ⟨hx, id, a, n', f, hto, hn', hf', hg⟩ := C213_asset_exact hp h
  obtain rfl : n = n' := Except.ok.inj (hn.symm.trans hn')
  have hne : f ≠ .permit := fun e => hf (e ▸ hf')
  have ha : act rt cx s id a input f = .ok o := by
    unfold execute at hx
    rw [hto.1] at hx
    simp only [hto.2, Option.some.injEq, call, bind_ok_iff, okOr_ok_iff] at hx
    obtain ⟨m, hm, f', hf2, _, _, ha⟩ := hx
    obtain rfl : n = m := Except.ok.inj (hn.symm.trans hm)
    obtain rfl : f = f' := Option.some.inj (hf'.symm.trans hf2)
    exact ha
  obtain ⟨h1, h2, h3⟩ := act_paid (k := k) hne ha
  exact ⟨by omega, h2, fun hc => (h3 hc).imp fun d hd => by omega⟩

/-- Non-vacuity: the running example of the asset contracts answers a call with 1000 gas and not with 999. -/
example : ∃ p o, mExecute parallelRates exRt (exCx 1) (callOf 0x18160ddd [] ++ []) exSt = some p ∧
    p.run 1000 = .done o 0 ∧ (∀ o l, p.run 999 ≠ .done o l) := by
  refine ⟨_, _, rfl, rfl, ?_⟩
  intro o l h
  cases h

end Ast

end Verif.Evm
