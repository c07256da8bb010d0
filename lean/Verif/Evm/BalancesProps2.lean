import Verif.Evm.BalancesEffect
import Mathlib.Algebra.BigOperators.Group.Finset.Basic
import Mathlib.Algebra.Order.BigOperators.Group.Finset

/-!
# Consent, allowances over histories, conservation (C126, C127, C130)
-/

namespace Verif.Evm.Bal

/-- The whole native balance of an account. -/
def total (n : Native) (a : Nat) : Nat := n.free a + n.resv a

/-- The allowance shown to users. -/
def allowed (s : State) (owner spender : Nat) : Nat := (s.approves owner spender).getD 0

/-- What a call may do to an account that did not make it. -/
inductive Consent (rt : Rt) (m : Meta) (cx : Ctx) (s s' : State) (a : Nat) : Prop
  /-- nothing is taken, no allowance changes -/
  | untouched (h : total s.cur a ≤ total s'.cur a) (ha : ∀ p, s'.approves a p = s.approves a p)
  /-- the caller spends `x` of its allowance; at most `x`, and a remainder below the existential deposit, is taken -/
  | spent (v x : Nat) (hv : s.approves a (rt.acct cx.caller) = some v) (hx : x ≤ v)
      (hv' : s'.approves a (rt.acct cx.caller) = some (v - x))
      (ha : ∀ p, p ≠ rt.acct cx.caller → s'.approves a p = s.approves a p)
      (h : total s.cur a ≤ total s'.cur a + x + dustOf rt s.cur a x)
  /-- the account's owner has signed a permit with the current nonce, which is not expired: the allowance is set and
  the nonce used up -/
  | permitted (owner spender value deadline r sg v : Nat) (ho : rt.acct owner = a) (h0 : owner ≠ 0)
      (hd : cx.now / 1000 ≤ deadline)
      (hsig : signerOf rt.crypto r sg v
        (generatePermit rt m.name cx.address ⟨owner, spender, value, s.nonces owner, deadline⟩) = some owner)
      (hn : s'.nonces owner = s.nonces owner + 1) (h : total s'.cur a = total s.cur a)
      (ha : ∀ p, s'.approves a p = if p = rt.acct spender then some (min value maxU128) else s.approves a p)

theorem Moved_ge {rt : Rt} {n n' : Native} {src dst amt a : Nat} (h : Moved rt n n' src dst amt) (ha : a ≠ src) :
    total n a ≤ total n' a := by
  by_cases h0 : amt = 0 ∨ src = dst
  · rw [h.same h0]
  · rw [not_or] at h0
    have := h.total h0.1 h0.2 a
    rw [if_neg ha] at this
    unfold total
    omega

theorem Moved_src {rt : Rt} {n n' : Native} {src dst amt : Nat} (h : Moved rt n n' src dst amt) :
    total n src ≤ total n' src + amt + dustOf rt n src amt := by
  by_cases h0 : amt = 0 ∨ src = dst
  · rw [h.same h0]; omega
  · rw [not_or] at h0
    have := h.total h0.1 h0.2 src
    rw [if_pos rfl] at this
    unfold total
    omega

/-- **C126.** Whatever calldata is sent, an account that neither makes the call nor is the token contract's own loses
native tokens only to a spender it has approved, at most what is left of the allowance, and its allowances change only
by being spent or by a permit with its own valid signature. -/
theorem C126_consent (rt : Rt) (m : Meta) (cx : Ctx) (input : List Byte) (s : State) (o : Out State)
    (h : execute rt m cx input s = .ok o) (a : Nat) (hc : a ≠ rt.acct cx.caller) (hp : a ≠ rt.acct cx.address) :
    Consent rt m cx s o.st a := by
  have he := execute_effect h
  generalize o.st = s' at he
  cases he with
  | view => exact .untouched (le_refl _) fun _ => rfl
  | approve sp am => exact .untouched (le_refl _) fun p => upd2_of_ne _ _ (.inl hc)
  | transfer d x cur ht => exact .untouched (Moved_ge (transfer_moved ht) hc) fun _ => rfl
  | transferFrom ow d x s1 cur hs ht =>
    have hm := transfer_moved ht
    by_cases hao : a = rt.acct ow
    · subst hao
      rcases spend_ok_iff.1 hs with ⟨he, -⟩ | ⟨hne, v, h3, h4, rfl⟩
      · exact (hc he.symm).elim
      · exact .spent v x h3 h4 (upd2_same _ _ _ _) (fun p hp => upd2_of_ne _ _ (.inr hp)) (Moved_src hm)
    · refine .untouched (Moved_ge hm hao) fun p => ?_
      rcases spend_ok_iff.1 hs with ⟨-, rfl⟩ | ⟨-, v, -, -, rfl⟩
      · rfl
      · exact upd2_of_ne _ _ (.inl hao)
  | deposit cur h0 ht => exact .untouched (Moved_ge (transfer_moved ht) hp) fun _ => rfl
  | permit ow sp va de r sg v hd hsig h0 =>
    by_cases hao : a = rt.acct ow
    · refine .permitted ow sp va de r sg v hao.symm h0 hd hsig (upd_same _ _ _) rfl fun p => ?_
      dsimp only
      have hs : saturate va = min va maxU128 := by
        unfold saturate
        split <;> omega
      rw [upd2_apply, hs]
      by_cases hpp : p = rt.acct sp
      · rw [if_pos ⟨hao, hpp⟩, if_pos hpp]
      · rw [if_neg fun e => hpp e.2, if_neg hpp]
    · exact .untouched (le_refl _) fun p => upd2_of_ne _ _ (.inl hao)

/-! ## Histories -/

/-- A history during which the account `a` is passive: it makes no call itself and no permit of it is used.  Other calls
are arbitrary; between them the rest of the chain may do anything that does not take tokens from `a` and does not touch
the storage of the precompile.  `n` counts the calls, `ps` holds the accounts of all callers. -/
inductive Passive (rt : Rt) (m : Meta) (a : Nat) : State → Finset Nat → Nat → State → Prop
  | start (s : State) (ps : Finset Nat) : Passive rt m a s ps 0 s
  | call {s s1 : State} {ps : Finset Nat} {n : Nat} (hr : Passive rt m a s ps n s1) (cx : Ctx) (input : List Byte)
      (o : Out State) (h : execute rt m cx input s1 = .ok o) (hps : rt.acct cx.caller ∈ ps)
      (hc : a ≠ rt.acct cx.caller) (hp : a ≠ rt.acct cx.address)
      (hn : ∀ owner, rt.acct owner = a → o.st.nonces owner = s1.nonces owner) : Passive rt m a s ps (n + 1) o.st
  | env {s s1 : State} {ps : Finset Nat} {n : Nat} (hr : Passive rt m a s ps n s1) (cur : Native)
      (h : total s1.cur a ≤ total cur a) : Passive rt m a s ps n { s1 with cur := cur }

theorem dust_lt (rt : Rt) (n : Native) (a x : Nat) : dustOf rt n a x ≤ rt.ed := by
  unfold dustOf
  split
  · omega
  · omega

/-- **C127.** Over any history an account that does nothing itself loses at most what its spenders' allowances have gone
down by, plus less than one existential deposit per call: it never loses more than it has approved. -/
theorem C127_bounded_loss (rt : Rt) (m : Meta) (a : Nat) (s s' : State) (ps : Finset Nat) (n : Nat)
    (h : Passive rt m a s ps n s') :
    total s.cur a + (∑ p ∈ ps, allowed s' a p) ≤ total s'.cur a + (∑ p ∈ ps, allowed s a p) + rt.ed * n := by
  induction h with
  | start ps => omega
  | env hr cur h ih => 
    refine le_trans ih ?_
    have : total _ a ≤ total cur a := h
    show _ ≤ total cur a + _ + _
    omega
  | @call s1 ps n hr cx input o h hps hc hp hn ih =>
    have key : total s1.cur a + (∑ p ∈ ps, allowed o.st a p) ≤
        total o.st.cur a + (∑ p ∈ ps, allowed s1 a p) + rt.ed := by
      have hcons := C126_consent rt m cx input s1 o h a hc hp
      cases hcons with
      | untouched h1 h2 =>
        have : (∑ p ∈ ps, allowed o.st a p) = ∑ p ∈ ps, allowed s1 a p :=
          Finset.sum_congr rfl fun p _ => by unfold allowed; rw [h2 p]
        omega
      | spent v x hv hx hv' ha h1 =>
        have hd := dust_lt rt s1.cur a x
        have e1 : (∑ p ∈ ps, allowed o.st a p) + x = ∑ p ∈ ps, allowed s1 a p := by
          rw [← Finset.add_sum_erase ps _ hps, ← Finset.add_sum_erase ps (allowed s1 a) hps]
          have e2 : allowed o.st a (rt.acct cx.caller) + x = allowed s1 a (rt.acct cx.caller) := by
            unfold allowed
            rw [hv, hv']
            show v - x + x = v
            omega
          have e3 : (∑ p ∈ ps.erase (rt.acct cx.caller), allowed o.st a p) =
              ∑ p ∈ ps.erase (rt.acct cx.caller), allowed s1 a p :=
            Finset.sum_congr rfl fun p hp => by unfold allowed; rw [ha p (Finset.ne_of_mem_erase hp)]
          omega
        omega
      | permitted ow sp va de r sg v ho h0 hd hsig hn' h1 h2 =>
        have := hn ow ho
        omega
    have : rt.ed * (n + 1) = rt.ed * n + rt.ed := by ring
    omega

/-- Non-vacuity: account 2 takes 50 of its allowance from the passive account 1. -/
example : ∃ s', Passive exRt exMeta 1 exSt {2} 1 s' ∧ total s'.cur 1 = 50 := by
  have hl : Sized (callOf 0x23b872dd [(20, 1), (20, 3), (32, 50)] ++ []) := by
    unfold Sized callOf
    rw [List.append_nil, List.length_append, beBytes_length]
    simp only [List.flatMap_cons, List.flatMap_nil, List.length_append, List.length_nil, Abi.encUint,
      List.length_replicate, beBytes_length]
    decide
  obtain ⟨o, ho⟩ := (C125_transfer_from_when exRt exMeta (exCx 2) exSt [] 1 3 50 (by decide) (by decide) (by decide)
      hl).2 ⟨rfl, by decide, .inr (.inr ⟨by decide, by decide, by decide, fun h => by cases h⟩),
        .inr ⟨50, rfl, by decide⟩⟩
  obtain ⟨hm, hn, -⟩ := C125_transfer_from_what exRt exMeta (exCx 2) exSt [] 1 3 50 (by decide) (by decide) (by decide)
    hl o ho
  refine ⟨o.st, .call (.start exSt {2}) (exCx 2) _ o ho (Finset.mem_singleton.2 rfl) (by decide) (by decide)
    (fun ow _ => by rw [hn]), ?_⟩
  have := hm.total (by decide) (by decide) 1
  have hd : dustOf exRt exSt.cur 1 50 = 0 := by decide
  rw [show exRt.acct 1 = 1 from rfl, show exRt.acct 3 = 3 from rfl, hd] at this
  have h2 : exSt.cur.free 1 + exSt.cur.resv 1 = 100 := by decide
  rw [h2] at this
  unfold total
  simp only [if_true] at this
  have e1 : ¬ (1 = 3) := by decide
  have e2 : ¬ (1 = exRt.treasury) := by decide
  rw [if_neg e1, if_neg e2] at this
  omega

/-! ## Conservation -/

/-- The balances add up to the total supply. -/
def Backed (n : Native) : Prop := SumsTo (total n) n.iss

theorem Moved_backed {rt : Rt} {n n' : Native} {src dst amt : Nat} (h : n.transfer rt src dst amt = .ok n')
    (hb : Backed n) : Backed n' := by
  have hm := transfer_moved h
  by_cases h0 : amt = 0 ∨ src = dst
  · rw [hm.same h0]; exact hb
  · have h1 := not_or.1 h0
    have hcan := (transfer_succeeds_iff rt n src dst amt).1 ⟨n', h⟩
    have hle : amt ≤ n.free src := by
      rcases hcan with h | h | ⟨h, -⟩
      · exact (h1.1 h).elim
      · exact (h1.2 h).elim
      · unfold Native.usable at h; omega
    have hdust : dustOf rt n src amt ≤ n.free src + n.resv src - amt := by
      unfold dustOf remainder
      split <;> omega
    unfold Backed at *
    rw [hm.supply]
    have step1 : SumsTo (fun a => total n a + (if a = dst then amt else 0) - (if a = src then amt else 0)) n.iss := by
      refine hb.move src dst amt (by unfold total; omega) fun i => ?_
      by_cases hi : i = src
      · subst hi
        rw [if_pos rfl, if_neg h1.2]
        unfold total
        omega
      · rw [if_neg hi]; omega
    refine step1.move src rt.treasury (dustOf rt n src amt) ?_ fun i => ?_
    · show _ ≤ _
      rw [if_pos rfl, if_neg h1.2]
      unfold total
      omega
    · have ht := hm.total h1.1 h1.2 i
      unfold total
      by_cases hi : i = src
      · subst hi
        rw [if_pos rfl] at ht
        rw [if_pos rfl, if_pos rfl]
        rw [if_neg h1.2] at ht ⊢
        omega
      · rw [if_neg hi] at ht
        rw [if_neg hi, if_neg hi]
        omega

/-- **C130.** No call, whatever its calldata, creates or destroys native tokens: the total supply stays the same, and
balances that added up to it still do. -/
theorem C130_conserved (rt : Rt) (m : Meta) (cx : Ctx) (input : List Byte) (s : State) (o : Out State)
    (h : execute rt m cx input s = .ok o) :
    o.st.cur.iss = s.cur.iss ∧ (Backed s.cur → Backed o.st.cur) := by
  have he := execute_effect h
  generalize o.st = s' at he
  cases he with
  | view => exact ⟨rfl, id⟩
  | approve sp am => exact ⟨rfl, id⟩
  | transfer d x cur ht => exact ⟨(transfer_moved ht).supply, Moved_backed ht⟩
  | transferFrom ow d x s1 cur hs ht => exact ⟨(transfer_moved ht).supply, Moved_backed ht⟩
  | deposit cur h0 ht => exact ⟨(transfer_moved ht).supply, Moved_backed ht⟩
  | permit ow sp va de r sg v hd hsig h0 => exact ⟨rfl, id⟩

/-- Non-vacuity: the example's balances add up. -/
example : Backed exSt.cur := by
  have h0 : SumsTo (fun _ : Nat => 0) 0 := ⟨∅, fun _ _ => rfl, rfl⟩
  have h1 : SumsTo (fun a : Nat => if a = 1 then 100 else 0) 100 :=
    h0.update 1 (fun i hi => if_neg hi) (by rw [if_pos rfl])
  refine h1.update 99 (fun i hi => ?_) (by decide)
  show (if i = 1 then 100 else if i = 99 then 1000 else 0) + 0 = _
  by_cases hi1 : i = 1
  · rw [if_pos hi1, if_pos hi1]
  · rw [if_neg hi1, if_neg hi1, if_neg hi]

end Verif.Evm.Bal
