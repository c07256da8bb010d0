import Verif.Evm.AssetsProps
import Verif.Evm.PermitProps
import Verif.Prelude.Sums

/-!
# Arbitrary calldata to asset contracts: consent, deposits, supply (C133, C134, C138)
-/

namespace Verif.Evm.Ast

/-- The possible effects of a successful call with arbitrary calldata to the contract of asset `id` (stored as `a`). -/
inductive Effect (rt : Rt) (cx : Ctx) (s : State) (id : Nat) (a : Asset) : State → Prop
  | view : Effect rt cx s id a s
  | approve (spender amount : Nat) (s' : State) (hs : cx.isStatic = false)
      (h : approveInner rt s id (rt.acct cx.caller) (rt.acct spender) amount = .ok s') : Effect rt cx s id a s'
  | transfer (dest x : Nat) (a' : Asset) (hs : cx.isStatic = false)
      (h : a.transfer (rt.acct cx.caller) (rt.acct dest) x = .ok a') (hf : rt.filter .transfer = true) :
      Effect rt cx s id a (s.setAsset id a')
  | spend (owner dest x : Nat) (p : Approval) (a' : Asset) (hs : cx.isStatic = false)
      (hne : rt.acct cx.caller ≠ rt.acct owner)
      (hp : s.approvals id (rt.acct owner) (rt.acct cx.caller) = some p) (hx : x ≤ p.amount)
      (h : a.transfer (rt.acct owner) (rt.acct dest) x = .ok a') (hf : rt.filter .transferApproved = true) :
      Effect rt cx s id a (settle (s.setAsset id a') id (rt.acct owner) (rt.acct cx.caller) p x)
  | mint (who x : Nat) (a' : Asset) (hs : cx.isStatic = false)
      (h : a.mint (rt.acct cx.caller) (rt.acct who) x = .ok a') (hf : rt.filter .mint = true) :
      Effect rt cx s id a (s.setAsset id a')
  | burn (who x : Nat) (a' : Asset) (hs : cx.isStatic = false)
      (h : a.burn (rt.acct cx.caller) (rt.acct who) x = .ok a') (hf : rt.filter .burn = true) :
      Effect rt cx s id a (s.setAsset id a')
  | permit (owner spender value deadline r sg v : Nat) (s' : State) (hd : cx.now / 1000 ≤ deadline)
      (hsig : signerOf rt.crypto r sg v (generatePermit rt (permitName a id) cx.codeAddress
        ⟨owner, spender, value, s.nonces cx.codeAddress owner, deadline⟩) = some owner)
      (h0 : owner ≠ 0)
      (h : approveInner rt
        { s with nonces := upd2 s.nonces cx.codeAddress owner (s.nonces cx.codeAddress owner + 1) } id
        (rt.acct owner) (rt.acct spender) value = .ok s') : Effect rt cx s id a s'

theorem act_effect {rt : Rt} {cx : Ctx} {input : List Byte} {s : State} {id : Nat} {a : Asset} (ha : s.assets id = some a)
    {f : Action} {o : Out State} (hm : checkModifier cx f.modifier = .ok ())
    (h : act rt cx s id a input f = .ok o) : Effect rt cx s id a o.st := by
  cases f with
  | totalSupply => change pure _ = _ at h; rw [pure_ok_iff] at h; subst h; exact .view
  | name => change pure _ = _ at h; rw [pure_ok_iff] at h; subst h; exact .view
  | symbol => change pure _ = _ at h; rw [pure_ok_iff] at h; subst h; exact .view
  | decimals => change pure _ = _ at h; rw [pure_ok_iff] at h; subst h; exact .view
  | minimumBalance => change pure _ = _ at h; rw [pure_ok_iff] at h; subst h; exact .view
  | domainSeparator => change pure _ = _ at h; rw [pure_ok_iff] at h; subst h; exact .view
  | balanceOf =>
    change balanceOf _ _ _ _ = _ at h
    unfold balanceOf at h
    simp only [bind_ok_iff, pure_ok_iff, Prod.exists] at h
    obtain ⟨_, _, _, _, _, _, _, rfl⟩ := h
    exact .view
  | allowance =>
    change allowance _ _ _ _ = _ at h
    unfold allowance at h
    simp only [bind_ok_iff, pure_ok_iff, Prod.exists] at h
    obtain ⟨_, _, _, _, _, _, _, _, _, _, rfl⟩ := h
    exact .view
  | nonces =>
    change noncesOf _ _ _ = _ at h
    unfold noncesOf at h
    simp only [bind_ok_iff, pure_ok_iff, Prod.exists] at h
    obtain ⟨_, _, _, _, _, rfl⟩ := h
    exact .view
  | approve =>
    have hst := (check_nonPayable_iff.1 hm).1
    change approve _ _ _ _ _ = _ at h
    unfold approve at h
    simp only [bind_ok_iff, pure_ok_iff, Prod.exists] at h
    obtain ⟨_, _, _, _, sp, _, _, am, _, _, s', hs, rfl⟩ := h
    exact .approve sp am s' hst hs
  | transfer =>
    have hst := (check_nonPayable_iff.1 hm).1
    change transfer _ _ _ _ _ = _ at h
    unfold transfer at h
    simp only [bind_ok_iff, pure_ok_iff, Prod.exists, dispatch_ok_iff, transferAsset_ok_iff ha] at h
    obtain ⟨_, _, _, _, d, _, _, am, _, _, x, _, s', ⟨hf, a', hs, rfl⟩, rfl⟩ := h
    exact .transfer d x a' hst hs hf
  | transferFrom =>
    have hst := (check_nonPayable_iff.1 hm).1
    change transferFrom _ _ _ _ _ = _ at h
    unfold transferFrom at h
    simp only [bind_ok_iff, pure_ok_iff, Prod.exists] at h
    obtain ⟨_, _, _, _, ow, _, _, d, _, _, am, _, _, x, _, s', hs, rfl⟩ := h
    unfold moveFrom at hs
    by_cases hc : rt.acct cx.caller = rt.acct ow
    · rw [if_neg (not_not.2 hc), dispatch_ok_iff] at hs
      obtain ⟨a', h5, rfl⟩ := (transferAsset_ok_iff ha).1 hs.2
      rw [← hc] at h5
      exact .transfer d x a' hst h5 hs.1
    · rw [if_pos hc, dispatch_ok_iff] at hs
      obtain ⟨-, p, h5, h6, a', h7, rfl⟩ := (transferApproved_ok_iff ha).1 hs.2
      exact .spend ow d x p a' hst hc h5 h6 h7 hs.1
  | mint =>
    have hst := (check_nonPayable_iff.1 hm).1
    change mint _ _ _ _ _ _ = _ at h
    unfold mint at h
    simp only [bind_ok_iff, pure_ok_iff, Prod.exists, dispatch_ok_iff] at h
    obtain ⟨_, _, _, _, d, _, _, am, _, _, x, _, a', ⟨hf, hs⟩, rfl⟩ := h
    exact .mint d x a' hst hs hf
  | burn =>
    have hst := (check_nonPayable_iff.1 hm).1
    change burn _ _ _ _ _ _ = _ at h
    unfold burn at h
    simp only [bind_ok_iff, pure_ok_iff, Prod.exists, dispatch_ok_iff] at h
    obtain ⟨_, _, _, _, d, _, _, am, _, _, x, _, a', ⟨hf, hs⟩, rfl⟩ := h
    exact .burn d x a' hst hs hf
  | permit =>
    change permit _ _ _ _ _ _ = _ at h
    unfold permit at h
    simp only [permitBody, bind_ok_iff, pure_ok_iff, ensure_ok_iff, exists_const, Prod.exists, okOr_ok_iff] at h
    obtain ⟨_, _, ow, _, _, sp, _, _, va, _, _, de, _, _, v, _, _, r, _, _, sg, _, _, hd, signer, hsig, ⟨h0, rfl⟩, _, s',
      hs, rfl⟩ := h
    exact .permit _ sp va de r sg v s' hd hsig h0 hs

theorem execute_effect {rt : Rt} {cx : Ctx} {input : List Byte} {s : State} {o : Out State}
    (h : execute rt cx input s = some (.ok o)) : ∃ id a, To cx s id a ∧ Effect rt cx s id a o.st := by
  unfold execute at h
  split at h
  · cases h
  · rename_i id hid
    split at h
    · cases h
    · rename_i a ha
      injection h with h
      refine ⟨id, a, ⟨hid, ha⟩, ?_⟩
      unfold call at h
      simp only [bind_ok_iff, okOr_ok_iff] at h
      obtain ⟨n, _, f, _, u, hm, hact⟩ := h
      exact act_effect ha hm hact

/-! ## Consent -/

/-- The balance of an account in an asset, 0 for an asset that does not exist. -/
def balOf (s : State) (id x : Nat) : Nat := ((s.assets id).map fun a => a.bal x).getD 0

/-- The whole native balance of an account. -/
def total (n : Native) (x : Nat) : Nat := n.free x + n.resv x

/-- What a call to the contract of asset `id` (stored as `a`) may do to an account `x` that did not make it. -/
inductive Consent (rt : Rt) (cx : Ctx) (id : Nat) (a : Asset) (s s' : State) (x : Nat) : Prop
  /-- nothing is taken, no approval changes -/
  | untouched (h : balOf s id x ≤ balOf s' id x) (ha : ∀ d, s'.approvals id x d = s.approvals id x d)
      (hn : s'.cur.resv x = s.cur.resv x)
  /-- the caller spends `v` of its allowance; `v` and at most a remainder below the asset's minimum balance is taken -/
  | spent (v : Nat) (hv : v ≤ allowanceOf s id x (rt.acct cx.caller))
      (hv' : allowanceOf s' id x (rt.acct cx.caller) = allowanceOf s id x (rt.acct cx.caller) - v)
      (ha : ∀ d, d ≠ rt.acct cx.caller → s'.approvals id x d = s.approvals id x d)
      (h : balOf s id x ≤ balOf s' id x + v + (a.minBal - 1))
  /-- the caller is the admin of the asset and burns tokens of the account -/
  | burnt (h : rt.acct cx.caller = a.admin) (ha : ∀ d, s'.approvals id x d = s.approvals id x d)
      (hn : s'.cur.resv x = s.cur.resv x)
  /-- the account's owner has signed a permit with the current nonce, which is not expired: the allowance is set -/
  | permitted (owner spender value deadline r sg v : Nat) (ho : rt.acct owner = x) (h0 : owner ≠ 0)
      (hd : cx.now / 1000 ≤ deadline)
      (hsig : signerOf rt.crypto r sg v (generatePermit rt (permitName a id) cx.codeAddress
        ⟨owner, spender, value, s.nonces cx.codeAddress owner, deadline⟩) = some owner)
      (hn : s'.nonces cx.codeAddress owner = s.nonces cx.codeAddress owner + 1) (h : balOf s' id x = balOf s id x)
      (hal : allowanceOf s' id x (rt.acct spender) = min value maxU128)
      (ha : ∀ d, d ≠ rt.acct spender → s'.approvals id x d = s.approvals id x d)

theorem balOf_set {s : State} {id : Nat} {a' : Asset} (x : Nat) : balOf (s.setAsset id a') id x = a'.bal x := by
  unfold balOf State.setAsset
  dsimp only
  rw [upd_same]
  rfl

theorem balOf_some {s : State} {id : Nat} {a : Asset} (h : s.assets id = some a) (x : Nat) : balOf s id x = a.bal x := by
  unfold balOf; rw [h]; rfl

theorem sent_ge {a a' : Asset} {src dst amt x : Nat} (h : Sent a a' src dst amt) (hx : x ≠ src) : a.bal x ≤ a'.bal x := by
  by_cases h0 : amt = 0 ∨ src = dst
  · rw [h.still h0]
  · rw [not_or] at h0
    have := h.moved h0.1 h0.2 x
    rw [if_neg hx] at this
    omega

theorem sent_src {a a' : Asset} {src dst amt : Nat} (h : Sent a a' src dst amt) :
    a.bal src ≤ a'.bal src + amt + (a.minBal - 1) := by
  by_cases h0 : amt = 0 ∨ src = dst
  · rw [h.still h0]; omega
  · rw [not_or] at h0
    have := h.moved h0.1 h0.2 src
    rw [if_pos rfl, if_neg h0.2] at this
    have := leaves_lt (a := a) (src := src) (amt := amt)
    omega

/-- **C133.** Whatever calldata is sent to an asset's contract: no other asset and nobody's native balance as a whole
changes, and an account that did not make the call loses tokens only to a spender it has approved (at most what is left of
the allowance, and a remainder below the minimum balance) or to the asset's admin; its allowances change only by being
spent or by a permit with its own valid signature. -/
theorem C133_consent (rt : Rt) (cx : Ctx) (input : List Byte) (s : State) (o : Out State)
    (h : execute rt cx input s = some (.ok o)) :
    ∃ id a, To cx s id a ∧
      (∀ j, j ≠ id → o.st.assets j = s.assets j ∧ o.st.approvals j = s.approvals j) ∧
      (∀ x, total o.st.cur x = total s.cur x) ∧
      ∀ x, x ≠ rt.acct cx.caller → Consent rt cx id a s o.st x := by
  obtain ⟨id, a, hto, he⟩ := execute_effect h
  have ha := hto.exists_
  refine ⟨id, a, hto, ?_⟩
  generalize o.st = s' at he
  cases he with
  | view => exact ⟨fun _ _ => ⟨rfl, rfl⟩, fun _ => rfl, fun x _ => .untouched (le_refl _) (fun _ => rfl) rfl⟩
  | approve sp am _ _ hap =>
    have w := approveInner_what ha hap
    refine ⟨fun j hj => ⟨by rw [w.assets], ?_⟩, fun x => ?_, fun x hx => ?_⟩
    · funext x y
      exact w.others j x y fun e => hj e.1
    · have h1 := w.free x
      have h2 := w.reserved x
      unfold total
      omega
    · refine .untouched (le_of_eq ?_) (fun d => w.others id x d fun e => hx e.2.1) ?_
      · unfold balOf; rw [w.assets]
      · have := w.reserved x
        rw [if_neg hx, if_neg hx] at this
        omega
  | transfer d v a' hst ht =>
    refine ⟨fun j hj => ⟨upd_of_ne _ _ hj, rfl⟩, fun _ => rfl, fun x hx => .untouched ?_ (fun _ => rfl) rfl⟩
    rw [balOf_set, balOf_some ha]
    exact sent_ge (asset_transfer_sent ht).1 hx
  | spend ow d v p a' hst hne hp hv ht =>
    obtain ⟨e1, e2⟩ := settle_assets (s.setAsset id a') id (rt.acct ow) (rt.acct cx.caller) p v
    obtain ⟨c1, c2, -, -, -⟩ := settle_cur (s.setAsset id a') id (rt.acct ow) (rt.acct cx.caller) p v hv
    have hsent := (asset_transfer_sent ht).1
    have hb : ∀ x, balOf (settle (s.setAsset id a') id (rt.acct ow) (rt.acct cx.caller) p v) id x = a'.bal x := by
      intro x
      unfold balOf
      rw [e1]
      exact balOf_set x
    refine ⟨fun j hj => ⟨?_, ?_⟩, fun x => ?_, fun x hx => ?_⟩
    · rw [e1]; exact upd_of_ne _ _ hj
    · funext x y
      exact settle_others _ _ _ _ _ _ fun e => hj e.1
    · have h1 := c1 x
      have h2 := c2 x
      change _ = s.cur.free x + _ at h1
      change _ = s.cur.resv x at h2
      unfold total
      omega
    · by_cases hxo : x = rt.acct ow
      · subst hxo
        refine .spent v ?_ ?_ (fun d hd => settle_others _ _ _ _ _ _ fun e => hd e.2.2) ?_
        · rw [allowanceOf_some hp]; exact hv
        · rw [settle_allowance, allowanceOf_some hp]
        · rw [hb, balOf_some ha]
          exact sent_src hsent
      · refine .untouched ?_ (fun d => settle_others _ _ _ _ _ _ fun e => hxo e.2.1) ?_
        · rw [hb, balOf_some ha]
          exact sent_ge hsent hxo
        · have h2 := c2 x
          rw [if_neg hxo] at h2
          exact h2
  | mint w v a' hst ht =>
    refine ⟨fun j hj => ⟨upd_of_ne _ _ hj, rfl⟩, fun _ => rfl, fun x hx => .untouched ?_ (fun _ => rfl) rfl⟩
    rw [balOf_set, balOf_some ha]
    rcases asset_mint_ok_iff.1 ht with ⟨-, rfl⟩ | ⟨-, -, -, -, -, -, rfl⟩
    · exact le_refl _
    · show _ ≤ upd _ _ _ x
      by_cases e : x = rt.acct w
      · rw [e, upd_same]; omega
      · rw [upd_of_ne _ _ e]
  | burn w v a' hst ht =>
    refine ⟨fun j hj => ⟨upd_of_ne _ _ hj, rfl⟩, fun _ => rfl, fun x hx => ?_⟩
    rcases asset_burn_ok_iff.1 ht with ⟨-, -, rfl⟩ | ⟨-, hadm, -⟩
    · refine .untouched ?_ (fun _ => rfl) rfl
      rw [balOf_set, balOf_some ha]
    · exact .burnt hadm (fun _ => rfl) rfl
  | permit ow sp va de r sg v _ hd hsig h0 hap =>
    have w := approveInner_what (s := { s with
      nonces := upd2 s.nonces cx.codeAddress ow (s.nonces cx.codeAddress ow + 1) }) ha hap
    refine ⟨fun j hj => ⟨by rw [w.assets], ?_⟩, fun x => ?_, fun x hx => ?_⟩
    · funext x y
      exact w.others j x y fun e => hj e.1
    · have h1 := w.free x
      have h2 := w.reserved x
      unfold total
      dsimp only at h1 h2
      omega
    · by_cases hxo : x = rt.acct ow
      · subst hxo
        refine .permitted ow sp va de r sg v rfl h0 hd hsig ?_ ?_ w.allowance fun d hd => w.others id _ d fun e => hd e.2.2
        · rw [w.nonces]; exact upd2_same _ _ _ _
        · unfold balOf; rw [w.assets]
      · refine .untouched (le_of_eq ?_) (fun d => w.others id x d fun e => hxo e.2.1) ?_
        · unfold balOf; rw [w.assets]
        · have := w.reserved x
          rw [if_neg hxo, if_neg hxo] at this
          dsimp only at this
          omega

/-! ## Deposits -/

/-- Every owner's reserved balance covers the deposits of all its approvals. -/
def Covered (s : State) : Prop := ∀ x, SumLe (fun k : Nat × Nat => depositOf s k.1 x k.2) (s.cur.resv x)

theorem covered_step {s s' : State} (hc : Covered s) (id o d : Nat)
    (hoff : ∀ j x y, ¬ (j = id ∧ x = o ∧ y = d) → s'.approvals j x y = s.approvals j x y)
    (hrest : ∀ x, x ≠ o → s'.cur.resv x = s.cur.resv x)
    (hin : depositOf s' id o d + s.cur.resv o ≤ depositOf s id o d + s'.cur.resv o) : Covered s' := by
  intro x
  by_cases hx : x = o
  · subst hx
    refine SumLe.update (hc x) (id, d) (fun k hk => ?_) hin
    unfold depositOf
    rw [hoff k.1 x k.2 fun e => hk (Prod.ext e.1 e.2.2)]
  · refine SumLe.mono (hc x) (fun k => le_of_eq ?_) (le_of_eq (hrest x hx).symm)
    unfold depositOf
    rw [hoff k.1 x k.2 fun e => hx e.2.1]

theorem approved_covered {rt : Rt} {s s' : State} {id o d v : Nat} (w : Approved rt s s' id o d v) (hc : Covered s) :
    Covered s' := by
  refine covered_step hc id o d w.others (fun x hx => ?_) ?_
  · have := w.reserved x
    rw [if_neg hx, if_neg hx] at this
    omega
  · have h1 := w.reserved o
    have h2 := w.deposit
    have hle : depositOf s id o d ≤ s.cur.resv o := (hc o).apply (id, d)
    rw [if_pos rfl, if_pos rfl] at h1
    unfold needed released at h1
    by_cases h0 : allowanceOf s id o d ≠ 0
    · rw [if_pos h0, if_pos h0] at h1
      rw [if_pos h0] at h2
      omega
    · rw [if_neg h0, if_neg h0] at h1
      rw [if_neg h0] at h2
      omega

/-- **C134 (covered).** Whatever calldata is sent, the deposits of all approvals stay covered by what their owners have
reserved, so that every deposit can be given back in full. -/
theorem C134_deposits_covered (rt : Rt) (cx : Ctx) (input : List Byte) (s : State) (o : Out State)
    (h : execute rt cx input s = some (.ok o)) (hc : Covered s) : Covered o.st := by
  obtain ⟨id, a, hto, he⟩ := execute_effect h
  have ha := hto.exists_
  generalize o.st = s' at he
  cases he with
  | view => exact hc
  | approve sp am _ _ hap => exact approved_covered (approveInner_what ha hap) hc
  | transfer d v a' hst ht => exact hc
  | mint w v a' hst ht => exact hc
  | burn w v a' hst ht => exact hc
  | permit ow sp va de r sg v _ hd hsig h0 hap =>
    exact approved_covered (s := { s with
      nonces := upd2 s.nonces cx.codeAddress ow (s.nonces cx.codeAddress ow + 1) }) (approveInner_what ha hap) hc
  | spend ow d v p a' hst hne hp hv ht =>
    obtain ⟨-, c2, -, -, -⟩ := settle_cur (s.setAsset id a') id (rt.acct ow) (rt.acct cx.caller) p v hv
    refine covered_step hc id (rt.acct ow) (rt.acct cx.caller)
      (fun j x y hne => settle_others _ _ _ _ _ _ hne) (fun x hx => ?_) ?_
    · have h2 := c2 x
      rw [if_neg hx] at h2
      exact h2
    · have h2 := c2 (rt.acct ow)
      rw [if_pos rfl] at h2
      change _ = s.cur.resv (rt.acct ow) at h2
      have hle : depositOf s id (rt.acct ow) (rt.acct cx.caller) ≤ s.cur.resv (rt.acct ow) :=
        (hc _).apply (id, rt.acct cx.caller)
      have hd : depositOf (settle (s.setAsset id a') id (rt.acct ow) (rt.acct cx.caller) p v) id (rt.acct ow)
          (rt.acct cx.caller) = if p.amount = v then 0 else p.deposit := by
        unfold settle
        by_cases hq : p.amount - v = 0
        · rw [if_pos hq, if_pos (by omega), depositOf_none (setApproval_same _ _ _ _ _)]
        · rw [if_neg hq, if_neg (by omega), depositOf_some (setApproval_same _ _ _ _ _)]
      rw [hd]
      rw [depositOf_some hp] at hle ⊢
      unfold givenBack at h2
      by_cases hq : p.amount = v
      · rw [if_pos hq] at h2 ⊢
        change _ + min (s.cur.resv (rt.acct ow)) p.deposit = _ at h2
        omega
      · rw [if_neg hq] at h2 ⊢
        omega

/-- **C134 (spent).** When an approval is used up, the owner gets the whole deposit back. -/
theorem C134_spent_returns (rt : Rt) (cx : Ctx) (s : State) (id : Nat) (a : Asset) (tail : List Byte) (hto : To cx s id a)
    (owner dest amount : Nat) (ho : owner < 256 ^ 20) (hp : dest < 256 ^ 20)
    (hm : amount < 256 ^ 32) (hl : Sized (callOf 0x23b872dd [(20, owner), (20, dest), (32, amount)] ++ tail))
    (hne : rt.acct cx.caller ≠ rt.acct owner) (o : Out State)
    (h : execute rt cx (callOf 0x23b872dd [(20, owner), (20, dest), (32, amount)] ++ tail) s = some (.ok o))
    (hc : Covered s) (hall : allowanceOf s id (rt.acct owner) (rt.acct cx.caller) = amount) :
    o.st.cur.free (rt.acct owner) = s.cur.free (rt.acct owner) + depositOf s id (rt.acct owner) (rt.acct cx.caller) := by
  obtain ⟨-, -, -, -, h5, -⟩ := C132_transfer_from_what rt cx s id a tail hto owner dest amount ho hp hm hl o h
  obtain ⟨-, -, h6, h7⟩ := h5 hne
  have h8 := h6 (rt.acct owner)
  have h9 := h7 (rt.acct owner)
  rw [if_pos ⟨rfl, hall⟩] at h9
  have hle : depositOf s id (rt.acct owner) (rt.acct cx.caller) ≤ s.cur.resv (rt.acct owner) :=
    (hc _).apply (id, rt.acct cx.caller)
  omega

/-- **C134 (revoking keeps the deposit).** Setting an allowance to 0 does not give the deposit back: at least the deposit
for one approval stays reserved for it. -/
theorem C134_revoke_keeps_deposit (rt : Rt) (cx : Ctx) (s : State) (id : Nat) (a : Asset) (tail : List Byte)
    (hto : To cx s id a) (spender : Nat) (hp : spender < 256 ^ 20)
    (hl : Sized (callOf 0x095ea7b3 [(20, spender), (32, 0)] ++ tail)) (o : Out State)
    (h : execute rt cx (callOf 0x095ea7b3 [(20, spender), (32, 0)] ++ tail) s = some (.ok o)) :
    allowanceOf o.st id (rt.acct cx.caller) (rt.acct spender) = 0 ∧
      rt.ed ≤ depositOf o.st id (rt.acct cx.caller) (rt.acct spender) := by
  obtain ⟨w, -, -⟩ := C132_approve_what rt cx s id a tail hto spender 0 hp (by decide) hl o h
  refine ⟨?_, ?_⟩
  · rw [w.allowance]; omega
  · rw [w.deposit]
    split
    · exact le_refl _
    · omega

/-! ## Supply -/

/-- The supply of an asset is the sum of its balances. -/
def Backed (a : Asset) : Prop := SumsTo a.bal a.supply ∧ a.supply ≤ maxU128

theorem sent_backed {a a' : Asset} {src dst amt : Nat} (h : Sent a a' src dst amt)
    (hc : CanSend a src dst amt) (hb : Backed a) : Backed a' := by
  have hs : a'.supply = a.supply := by rw [h.rest]
  refine ⟨?_, by rw [hs]; exact hb.2⟩
  rw [hs]
  by_cases h0 : amt = 0 ∨ src = dst
  · rw [h.still h0]; exact hb.1
  · rw [not_or] at h0
    rcases hc with h1 | ⟨-, -, h1, -, -⟩
    · exact (h0.1 h1).elim
    · have hm := h.moved h0.1 h0.2
      refine SumsTo.congr (f := fun x => if x = dst then a.bal dst + leaves a src amt
        else if x = src then a.bal src - leaves a src amt else a.bal x) ?_ fun x => ?_
      · have h2 : SumsTo (fun x => if x = src then a.bal src - leaves a src amt else a.bal x)
            (a.supply - leaves a src amt) := by
          refine SumsTo.update hb.1 src (fun i hi => if_neg hi) ?_
          rw [if_pos rfl]
          have := leaves_le h1
          have := hb.1.apply src
          omega
        refine SumsTo.update h2 dst (fun i hi => if_neg hi) ?_
        rw [if_pos rfl, if_neg fun e => h0.2 e.symm]
        have := leaves_le h1
        have := hb.1.apply src
        omega
      · have := hm x
        have hl := leaves_le h1
        by_cases e1 : x = dst
        · subst e1
          rw [if_pos rfl] at this ⊢
          rw [if_neg fun e => h0.2 e.symm] at this
          omega
        · rw [if_neg e1] at this ⊢
          by_cases e2 : x = src
          · subst e2
            rw [if_pos rfl] at this ⊢
            omega
          · rw [if_neg e2] at this ⊢
            omega

/-- **C138.** Whatever calldata is sent, every asset whose supply was the sum of its balances still is so, and the supply
of an asset changes only when its issuer mints (up) or its admin burns (down). -/
theorem C138_supply (rt : Rt) (cx : Ctx) (input : List Byte) (s : State) (o : Out State)
    (h : execute rt cx input s = some (.ok o)) (j : Nat) (b : Asset) (hj : s.assets j = some b) :
    ∃ b', o.st.assets j = some b' ∧ (Backed b → Backed b') ∧
      (b.supply < b'.supply → rt.acct cx.caller = b.issuer) ∧ (b'.supply < b.supply → rt.acct cx.caller = b.admin) ∧
      b'.issuer = b.issuer ∧ b'.admin = b.admin ∧ b'.minBal = b.minBal ∧ b'.status = b.status ∧ b'.frozen = b.frozen ∧
      b'.name = b.name := by
  obtain ⟨id, a, hto, he⟩ := execute_effect h
  have ha := hto.exists_
  have same : ∃ b', some b = some b' ∧ (Backed b → Backed b') ∧
      (b.supply < b'.supply → rt.acct cx.caller = b.issuer) ∧ (b'.supply < b.supply → rt.acct cx.caller = b.admin) ∧
      b'.issuer = b.issuer ∧ b'.admin = b.admin ∧ b'.minBal = b.minBal ∧ b'.status = b.status ∧ b'.frozen = b.frozen ∧
      b'.name = b.name :=
    ⟨b, rfl, fun h => h, fun h => absurd h (lt_irrefl _), fun h => absurd h (lt_irrefl _), rfl, rfl, rfl, rfl, rfl, rfl⟩
  have moved : ∀ src dst x a', a.transfer src dst x = .ok a' → ∃ b', (s.setAsset id a').assets j = some b' ∧ (Backed b → Backed b') ∧
      (b.supply < b'.supply → rt.acct cx.caller = b.issuer) ∧ (b'.supply < b.supply → rt.acct cx.caller = b.admin) ∧
      b'.issuer = b.issuer ∧ b'.admin = b.admin ∧ b'.minBal = b.minBal ∧ b'.status = b.status ∧ b'.frozen = b.frozen ∧
      b'.name = b.name := by
    intro src dst x a' ht
    by_cases e : j = id
    · subst e
      rw [ha] at hj
      injection hj with hj
      subst hj
      obtain ⟨h1, h2⟩ := asset_transfer_sent ht
      have h3 := h1.rest
      exact ⟨a', upd_same _ _ _, sent_backed h1 h2, fun h => by rw [h3] at h; exact absurd h (lt_irrefl _),
        fun h => by rw [h3] at h; exact absurd h (lt_irrefl _), by rw [h3], by rw [h3], by rw [h3], by rw [h3], by rw [h3],
        by rw [h3]⟩
    · rw [show (s.setAsset id a').assets j = s.assets j from upd_of_ne _ _ e, hj]
      exact same
  generalize o.st = s' at he
  cases he with
  | view => rw [hj]; exact same
  | approve sp am _ _ hap => rw [(approveInner_what ha hap).assets, hj]; exact same
  | transfer d v a' hst ht => exact moved _ _ _ _ ht
  | spend ow d v p a' hst hne hp hv ht =>
    rw [(settle_assets _ _ _ _ _ _).1]
    exact moved _ _ _ _ ht
  | permit ow sp va de r sg v _ hd hsig h0 hap =>
    have w := approveInner_what (s := { s with
      nonces := upd2 s.nonces cx.codeAddress ow (s.nonces cx.codeAddress ow + 1) }) ha hap
    rw [w.assets]
    dsimp only
    rw [hj]
    exact same
  | mint w v a' hst ht =>
    by_cases e : j = id
    · subst e
      rw [ha] at hj
      injection hj with hj
      subst hj
      refine ⟨a', upd_same _ _ _, ?_⟩
      rcases asset_mint_ok_iff.1 ht with ⟨-, rfl⟩ | ⟨h0, hi, -, hs, -, -, rfl⟩
      · exact ⟨fun h => h, fun h => absurd h (lt_irrefl _), fun h => absurd h (lt_irrefl _), rfl, rfl, rfl, rfl, rfl, rfl⟩
      · refine ⟨fun hb => ⟨?_, hs⟩, fun _ => hi, fun h => ?_, rfl, rfl, rfl, rfl, rfl, rfl⟩
        · refine SumsTo.update hb.1 (rt.acct w) (fun i hi => upd_of_ne _ _ hi) ?_
          dsimp only
          rw [upd_same]; omega
        · dsimp only at h; omega
    · rw [show (s.setAsset id a').assets j = s.assets j from upd_of_ne _ _ e, hj]
      exact same
  | burn w v a' hst ht =>
    by_cases e : j = id
    · subst e
      rw [ha] at hj
      injection hj with hj
      subst hj
      refine ⟨a', upd_same _ _ _, ?_⟩
      rcases asset_burn_ok_iff.1 ht with ⟨-, -, rfl⟩ | ⟨h0, hi, -, -, -, rfl⟩
      · exact ⟨fun h => h, fun h => absurd h (lt_irrefl _), fun h => absurd h (lt_irrefl _), rfl, rfl, rfl, rfl, rfl, rfl⟩
      · refine ⟨fun hb => ⟨?_, ?_⟩, fun h => ?_, fun _ => hi, rfl, rfl, rfl, rfl, rfl, rfl⟩
        · refine SumsTo.update hb.1 (rt.acct w) (fun i hi => upd_of_ne _ _ hi) ?_
          dsimp only
          rw [upd_same]
          have h1 := leaves_le (a := a) (src := rt.acct w) (amt := min (a.bal (rt.acct w)) v) (by omega)
          have h2 := hb.1.apply (rt.acct w)
          omega
        · have := hb.2
          dsimp only
          omega
        · dsimp only at h; omega
    · rw [show (s.setAsset id a').assets j = s.assets j from upd_of_ne _ _ e, hj]
      exact same

/-- Non-vacuity: the example state is covered and its asset backed. -/
example : Covered exSt ∧ Backed exAsset := by
  constructor
  · intro x
    refine SumLe.update (SumLe.zero 0) (7, 2) (fun k hk => ?_) ?_
    · unfold depositOf
      have : exSt.approvals k.1 x k.2 = none := by
        show (if k.1 = 7 ∧ x = 1 ∧ k.2 = 2 then some (⟨98, 10⟩ : Approval) else none) = none
        rw [if_neg]
        exact fun e => hk (Prod.ext e.1 e.2.2)
      rw [this]; rfl
    · show depositOf exSt 7 x 2 + 0 ≤ 0 + (if x = 1 then 10 else 0)
      unfold depositOf
      by_cases hx : x = 1
      · rw [hx]; decide
      · have : exSt.approvals 7 x 2 = none := by
          show (if 7 = 7 ∧ x = 1 ∧ 2 = 2 then some (⟨98, 10⟩ : Approval) else none) = none
          rw [if_neg]
          exact fun e => hx e.2.1
        rw [this, if_neg hx]; decide
  · refine ⟨⟨{1, 2}, fun i hi => ?_, by decide⟩, by decide⟩
    simp only [Finset.mem_insert, Finset.mem_singleton, not_or] at hi
    show (if i = 1 then 100 else if i = 2 then 50 else 0) = 0
    rw [if_neg hi.1, if_neg hi.2]

end Verif.Evm.Ast
