import Verif.Evm.BalancesProps

/-!
# What any call of the native ERC-20 interface can do to the state
-/

namespace Verif.Evm.Bal

/-- The possible effects of a successful call with arbitrary calldata. -/
inductive Effect (rt : Rt) (m : Meta) (cx : Ctx) (s : State) : State → Prop
  | view : Effect rt m cx s s
  | approve (spender amount : Nat) : Effect rt m cx s
      { s with approves := upd2 s.approves (rt.acct cx.caller) (rt.acct spender) (some (saturate amount)) }
  | transfer (dest a : Nat) (cur : Native) (h : s.cur.transfer rt (rt.acct cx.caller) (rt.acct dest) a = .ok cur)
      (hf : rt.filter .native = true) :
      Effect rt m cx s { s with cur := cur }
  | transferFrom (owner dest a : Nat) (s1 : State) (cur : Native)
      (hs : spend s (rt.acct cx.caller) (rt.acct owner) a = .ok s1)
      (h : s.cur.transfer rt (rt.acct owner) (rt.acct dest) a = .ok cur) (hf : rt.filter .native = true) :
      Effect rt m cx s { s1 with cur := cur }
  | deposit (cur : Native) (h0 : cx.value ≠ 0)
      (h : s.cur.transfer rt (rt.acct cx.address) (rt.acct cx.caller) cx.value = .ok cur) (hf : rt.filter .native = true) :
      Effect rt m cx s { s with cur := cur }
  | permit (owner spender value deadline r sg v : Nat) (hd : cx.now / 1000 ≤ deadline)
      (hsig : signerOf rt.crypto r sg v
        (generatePermit rt m.name cx.address ⟨owner, spender, value, s.nonces owner, deadline⟩) = some owner)
      (h0 : owner ≠ 0) : Effect rt m cx s
      { s with
        nonces := upd s.nonces owner (s.nonces owner + 1)
        approves := upd2 s.approves (rt.acct owner) (rt.acct spender) (some (saturate value)) }

theorem execute_effect {rt : Rt} {m : Meta} {cx : Ctx} {input : List Byte} {s : State} {o : Out State}
    (h : execute rt m cx input s = .ok o) : Effect rt m cx s o.st := by
  unfold execute at h
  split at h
  · unfold totalSupply at h
    simp only [bind_ok_iff, pure_ok_iff] at h
    obtain ⟨_, _, _, _, rfl⟩ := h
    exact .view
  · unfold balanceOf at h
    simp only [bind_ok_iff, pure_ok_iff, Prod.exists] at h
    obtain ⟨_, _, _, _, _, _, _, rfl⟩ := h
    exact .view
  · unfold allowance at h
    simp only [bind_ok_iff, pure_ok_iff, Prod.exists] at h
    obtain ⟨_, _, _, _, _, _, _, _, _, _, rfl⟩ := h
    exact .view
  · unfold Bal.approve at h
    simp only [bind_ok_iff, pure_ok_iff, Prod.exists] at h
    obtain ⟨_, _, _, _, sp, _, _, am, _, _, rfl⟩ := h
    exact .approve sp am
  · unfold Bal.transfer at h
    simp only [bind_ok_iff, pure_ok_iff, Prod.exists, dispatch_ok_iff] at h
    obtain ⟨_, _, _, _, d, _, _, am, _, _, a, _, cur, ⟨hf, hc⟩, rfl⟩ := h
    exact .transfer d a cur hc hf
  · unfold Bal.transferFrom at h
    simp only [bind_ok_iff, pure_ok_iff, Prod.exists, dispatch_ok_iff] at h
    obtain ⟨_, _, _, _, ow, _, _, d, _, _, am, _, _, a, _, s1, hs, cur, ⟨hf, hc⟩, rfl⟩ := h
    rw [(spend_cur hs).1] at hc
    exact .transferFrom ow d a s1 cur hs hc hf
  · rw [pure_ok_iff] at h; subst h; exact .view
  · rw [pure_ok_iff] at h; subst h; exact .view
  · rw [pure_ok_iff] at h; subst h; exact .view
  · unfold Bal.deposit at h
    simp only [bind_ok_iff, pure_ok_iff, ensure_ok_iff, exists_const, u256ToAmount_ok_iff, dispatch_ok_iff] at h
    obtain ⟨_, a, ⟨_, rfl⟩, h0, cur, ⟨hf, hc⟩, rfl⟩ := h
    exact .deposit cur h0 hc hf
  · unfold withdraw at h
    simp only [bind_ok_iff, pure_ok_iff, ensure_ok_iff, exists_const, Prod.exists] at h
    obtain ⟨_, _, _, _, _, _, _, rfl⟩ := h
    exact .view
  · unfold Bal.permit at h
    simp only [permitBody, bind_ok_iff, pure_ok_iff, ensure_ok_iff, exists_const, Prod.exists, okOr_ok_iff] at h
    obtain ⟨_, _, ow, _, _, sp, _, _, va, _, _, de, _, _, v, _, _, r, _, _, sg, _, _, hd, signer, hsig, ⟨h0, rfl⟩, _, rfl⟩ := h
    exact .permit _ sp va de r sg v hd hsig h0
  · unfold noncesOf at h
    simp only [bind_ok_iff, pure_ok_iff, Prod.exists] at h
    obtain ⟨_, _, _, _, _, rfl⟩ := h
    exact .view
  · rw [pure_ok_iff] at h; subst h; exact .view

end Verif.Evm.Bal
