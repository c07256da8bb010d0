import Verif.Runtime.Spec

/-!
# Executions of calls as derivation trees
-/

namespace Verif.Runtime
open Verif

/-- State after a leaf. -/
def logged (s : State) (e : Entry) : State := { s with log := e :: s.log }

/-- What a successful call can have done. -/
inductive Exec (c : Cfg) : Origin → State → Call → State → Prop
  | leaf {o s k a} : k.fn.modelled = false → c.leafOk s o.caller k a = true →
      Exec c o s (.leaf k a) (logged s ⟨o.caller, k, a, 0⟩)
  | transfer {o s d m w s1} : o.caller = .signed w → doTransfer c s w d m = .ok s1 →
      Exec c o s (.transfer d m) (logged s1 ⟨o.caller, ⟨.balances, .transfer⟩, d, m⟩)
  | batchNil {o s cs} : Exec c o s (.batch cs) s
  | batchCons {o s k cs s1 s2} : (o.caller = .root ∨ (signedOf o).isSome) → allowed c s o k.kind = true → Exec c o s k s1 → Exec c o s1 (.batch cs) s2 →
      Exec c o s (.batch (.cons k cs)) s2
  | allNil {o s} : Exec c o s (.batchAll .nil) s
  | allCons {o s k cs s1 s2} : (o.caller = .root ∨ (signedOf o).isSome) → allowed c s o k.kind = true → Exec c o s k s1 → Exec c o s1 (.batchAll cs) s2 →
      Exec c o s (.batchAll (.cons k cs)) s2
  | deriv {o s i k w s'} : o.caller = .signed w →
      allowed c s ⟨.signed (c.derive w i), o.filters⟩ k.kind = true →
      Exec c ⟨.signed (c.derive w i), o.filters⟩ s k s' → Exec c o s (.asDerivative i k) s'
  | proxyNil {o s r f k} : Exec c o s (.proxy r f k) s
  | proxy {o s r f k w t s'} : o.caller = .signed w → ⟨w, t, 0⟩ ∈ s.proxies r → (f = none ∨ f = some t) →
      allowed c s ⟨.signed r, [t]⟩ k.kind = true → Exec c ⟨.signed r, [t]⟩ s k s' → Exec c o s (.proxy r f k) s'
  | addProxy {o s d t y w} : o.caller = .signed w →
      Exec c o s (.addProxy d t y) (logged { s with proxies := upd s.proxies w (⟨d, t, y⟩ :: s.proxies w) }
        ⟨o.caller, ⟨.proxy, .addProxy⟩, d, y⟩)
  | removeProxy {o s d t y w} : o.caller = .signed w →
      Exec c o s (.removeProxy d t y) (logged { s with proxies := upd s.proxies w ((s.proxies w).erase ⟨d, t, y⟩) }
        ⟨o.caller, ⟨.proxy, .removeProxy⟩, d, y⟩)
  | togP {o s p} : (o.caller = .root ∨ o.caller = .council) →
      Exec c o s (.togglePallet p) (logged { s with disP := upd s.disP p (!s.disP p) }
        ⟨o.caller, ⟨.emergencyShutdown, .togglePallet⟩, p, 0⟩)
  | togC {o s p i} : (o.caller = .root ∨ o.caller = .council) →
      Exec c o s (.toggleCall p i) (logged { s with disC := upd s.disC p (upd (s.disC p) i (!s.disC p i)) }
        ⟨o.caller, ⟨.emergencyShutdown, .toggleCall⟩, p, i⟩)
  | evmNil {o s k w sig n s1 s2} : o.caller = .none → n = s.nonce w → sig.length = 65 → validSig c n k sig w = true →
      incNonce s w = .ok s1 → payFee c s1 w = .ok s2 → Exec c o s (.evmCall k w sig n) s2
  | evm {o s k w sig n s1 s2 s'} : o.caller = .none → n = s.nonce w → sig.length = 65 → validSig c n k sig w = true →
      incNonce s w = .ok s1 → payFee c s1 w = .ok s2 → Exec c ⟨.signed w, []⟩ s2 k s' →
      Exec c o s (.evmCall k w sig n) s'

theorem signedOf_eq {o : Origin} {w : Nat} : signedOf o = some w ↔ o.caller = .signed w := by
  unfold signedOf
  cases o.caller <;> simp

theorem findProxy_eq {s : State} {r w : Nat} {f : Option ProxyType} {d : ProxyDef} (h : findProxy s r w f = some d) :
    d.delegate = w ∧ d ∈ s.proxies r ∧ (f = none ∨ f = some d.ty) := by
  unfold findProxy at h
  have h1 := List.find?_some h
  have h2 := List.mem_of_find?_eq_some h
  simp only [Bool.and_eq_true, decide_eq_true_eq] at h1
  exact ⟨h1.1, h2, h1.2⟩

mutual
theorem exec_of_bypass (c : Cfg) : ∀ (k : Call) (s : State) (o : Origin) (s' : State),
    bypass c s o k = .ok s' → Exec c o s k s'
  | .leaf k a, s, o, s', h => by
    simp only [bypass] at h
    split at h
    · cases h
    · split at h
      · rename_i h1 h2
        cases h
        exact .leaf (by simpa using h1) h2
      · cases h
  | .transfer d m, s, o, s', h => by
    simp only [bypass, bind_ok_iff, okOr_ok_iff, pure_ok_iff, signedOf_eq] at h
    obtain ⟨w, hw, s1, h1, rfl⟩ := h
    exact .transfer hw h1
  | .batch cs, s, o, s', h => by
    simp only [bypass, bind_ok_iff, ensure_ok_iff, pure_ok_iff, exists_const] at h
    obtain ⟨hr, rfl⟩ := h
    exact exec_of_runBatch c cs s o hr
  | .batchAll cs, s, o, s', h => by
    simp only [bypass, bind_ok_iff, ensure_ok_iff, exists_const] at h
    exact exec_of_runAll c cs s o s' h.1 h.2
  | .asDerivative i k, s, o, s', h => by
    simp only [bypass, bind_ok_iff, okOr_ok_iff, signedOf_eq] at h
    obtain ⟨w, hw, h1⟩ := h
    split at h1
    · rename_i ha
      exact .deriv hw ha (exec_of_bypass c k s _ s' h1)
    · cases h1
  | .proxy r f k, s, o, s', h => by
    simp only [bypass, bind_ok_iff, okOr_ok_iff, signedOf_eq, ensure_ok_iff, pure_ok_iff, exists_const] at h
    obtain ⟨w, hw, d, hd, hy, h1⟩ := h
    subst h1
    obtain ⟨hd1, hd2, hd3⟩ := findProxy_eq hd
    split
    · rename_i ha
      rcases commit_cases s (bypass c s ⟨.signed r, [d.ty]⟩ k) with hc | hc
      · refine .proxy (t := d.ty) hw ?_ hd3 ha (exec_of_bypass c k s _ _ hc)
        rcases d with ⟨d1, d2, d3⟩
        simp only at hd1 hy
        subst hd1 hy
        exact hd2
      · rw [hc.1]
        exact .proxyNil
    · exact .proxyNil
  | .addProxy d t y, s, o, s', h => by
    simp only [bypass, bind_ok_iff, okOr_ok_iff, signedOf_eq, ensure_ok_iff, pure_ok_iff, exists_const] at h
    obtain ⟨w, hw, -, -, rfl⟩ := h
    exact .addProxy hw
  | .removeProxy d t y, s, o, s', h => by
    simp only [bypass, bind_ok_iff, okOr_ok_iff, signedOf_eq, ensure_ok_iff, pure_ok_iff, exists_const] at h
    obtain ⟨w, hw, -, rfl⟩ := h
    exact .removeProxy hw
  | .togglePallet p, s, o, s', h => by
    simp only [bypass, Verif.Runtime.togglePallet, bind_ok_iff, ensure_ok_iff, pure_ok_iff, exists_const] at h
    obtain ⟨ho, rfl⟩ := h
    exact .togP ho
  | .toggleCall p i, s, o, s', h => by
    simp only [bypass, Verif.Runtime.toggleCall, bind_ok_iff, ensure_ok_iff, pure_ok_iff, exists_const] at h
    obtain ⟨ho, rfl⟩ := h
    exact .togC ho
  | .evmCall k w sig n, s, o, s', h => by
    simp only [bypass, bind_ok_iff, ensure_ok_iff, pure_ok_iff, exists_const] at h
    obtain ⟨ho, hn, hl, hv, s1, h1, s2, h2, h3⟩ := h
    subst h3
    rcases commit_cases s2 (bypass c s2 ⟨.signed w, []⟩ k) with hc | hc
    · exact .evm ho hn hl hv h1 h2 (exec_of_bypass c k s2 _ _ hc)
    · rw [hc.1]
      exact .evmNil ho hn hl hv h1 h2
theorem exec_of_runBatch (c : Cfg) : ∀ (cs : Calls) (s : State) (o : Origin),
    (o.caller = .root ∨ (signedOf o).isSome) → Exec c o s (.batch cs) (runBatch c s o cs)
  | .nil, s, o, hr => by
    simp only [runBatch]
    exact .batchNil
  | .cons k ks, s, o, hr => by
    simp only [runBatch]
    split
    · rename_i s1 h1
      split at h1
      · rename_i ha
        exact .batchCons hr ha (exec_of_bypass c k s o s1 h1) (exec_of_runBatch c ks s1 o hr)
      · cases h1
    · exact .batchNil
theorem exec_of_runAll (c : Cfg) : ∀ (cs : Calls) (s : State) (o : Origin) (s' : State),
    (o.caller = .root ∨ (signedOf o).isSome) → runAll c s o cs = .ok s' → Exec c o s (.batchAll cs) s'
  | .nil, s, o, s', hr, h => by
    simp only [runAll] at h
    cases h
    exact .allNil
  | .cons k ks, s, o, s', hr, h => by
    simp only [runAll] at h
    split at h
    · rename_i s1 h1
      split at h1
      · rename_i ha
        exact .allCons hr ha (exec_of_bypass c k s o s1 h1) (exec_of_runAll c ks s1 o s' hr h)
      · cases h1
    · cases h
end

end Verif.Runtime
