import Verif.System.OriginSpec
import Verif.System.Props

/-!
# Who may make which call (C193)
-/

namespace Verif.System
open Verif
variable {c : Cfg} {D : Nat → Prop} {s s' : State} {r : Roles} {o : Origin} {t : Tx}

theorem governs_iff : o.governs = true ↔ Governance o := by
  unfold Governance
  cases o <;> simp [Origin.governs]
  omega

theorem dispatch_iff : dispatch r c s o t = .ok s' ↔ meets r o t.need = true ∧ t.run r c s = .ok s' := by
  simp only [dispatch, bind_ok_iff, ensure_ok_iff, exists_const]

theorem meets_signer {w : Nat} : meets r o (.signer w) = true ↔ o = .signed w := by
  cases o <;> simp [meets]
theorem meets_governance : meets r o .governance = true ↔ Governance o := by
  rw [← governs_iff]; cases o <;> simp [meets]
theorem meets_agent : meets r o .agent = true ↔ Governance o ∨ ∃ u, o = .signed u ∧ r.agent u = true := by
  rw [← governs_iff]; cases o <;> simp [meets, Origin.governs]
theorem meets_automator : meets r o .automator = true ↔ Governance o ∨ ∃ u, o = .signed u ∧ r.automator u = true := by
  rw [← governs_iff]; cases o <;> simp [meets, Origin.governs]
theorem meets_response : meets r o .response = true ↔ Governance o ∨ o = .response := by
  rw [← governs_iff]; cases o <;> simp [meets, Origin.governs]

/-- The swaps of a router call are calls of the AMM signed by the trader. -/
theorem swapAlong_reach {w : Nat} (hw : ¬ Vaulted c w) : ∀ (route xs : List Nat) (s : State) (y : Amm.State),
    Reach c D s → Router.swapAlong c.amm s.ammV w route xs = .ok y →
    Reach c D (s.putAmm y) ∧ ∀ v, v ≠ w → v ≠ c.amm.acct → ∀ a, s.ledger.bal a v ≤ y.ledger.bal a v
  | [], _, s, y, h, e => by
    simp only [Router.swapAlong, Except.ok.injEq] at e; subst e; exact ⟨h, fun _ _ _ _ => le_refl _⟩
  | [_], _, s, y, h, e => by
    simp only [Router.swapAlong, Except.ok.injEq] at e; subst e; exact ⟨h, fun _ _ _ _ => le_refl _⟩
  | _ :: _ :: _, [], s, y, h, e => by
    simp only [Router.swapAlong, Except.ok.injEq] at e; subst e; exact ⟨h, fun _ _ _ _ => le_refl _⟩
  | a :: b :: rest, x :: xs, s, y, h, e => by
    simp only [Router.swapAlong, bind_ok_iff, Prod.exists] at e
    obtain ⟨y1, out, h1, h2⟩ := e
    have hk : (Call.amm (.swap w a b x)).OK c D s := by
      constructor
      · intro v hv
        simp only [Call.actors, Amm.Call.payers, List.mem_singleton] at hv
        rw [hv]; exact hw
      · intro k hk; cases hk; intro a ha; simp [Amm.Call.newLp] at ha
      all_goals intros; contradiction
    have h4 : Amm.exec c.amm s.ammV (.swap w a b x) = .ok y1 := by
      simp only [Amm.exec, bind_ok_iff, pure_ok_iff, Prod.exists]
      exact ⟨y1, out, h1, rfl⟩
    have h3 : exec c s (.amm (.swap w a b x)) = .ok (s.putAmm y1) := by
      simp only [exec, bind_ok_iff, pure_ok_iff]
      exact ⟨y1, h4, rfl⟩
    obtain ⟨g1, g2⟩ := swapAlong_reach hw (b :: rest) xs (s.putAmm y1) y (h.step (.call _ hk h3)) h2
    refine ⟨g1, fun v h5 h6 a' => le_trans ((Amm.exec_guar h4).1.bal a' v ?_) (g2 v h5 h6 a')⟩
    simp [Amm.Call.payers, h5, h6]

theorem swap_reach (h : Reach c D s) {w : Nat} {route : List Nat} {x m : Nat} (hw : ¬ Vaulted c w)
    (hd : Tx.run r c s (.swapIn w route x m) = .ok s' ∨ Tx.run r c s (.swapOut w route x m) = .ok s') :
    Reach c D s' ∧ ∀ v, v ≠ w → v ≠ c.amm.acct → ∀ a, s.ledger.bal a v ≤ s'.ledger.bal a v := by
  rcases hd with hd | hd
  · simp only [Tx.run, Router.swapExactIn, bind_ok_iff, pure_ok_iff, ensure_ok_iff, exists_const] at hd
    obtain ⟨y, ⟨_, _, _, _, xs, _, _, e⟩, rfl⟩ := hd
    exact swapAlong_reach hw _ _ _ _ h e
  · simp only [Tx.run, Router.swapExactOut, bind_ok_iff, pure_ok_iff, ensure_ok_iff, exists_const] at hd
    obtain ⟨y, ⟨_, _, _, xs, _, _, _, e⟩, rfl⟩ := hd
    exact swapAlong_reach hw _ _ _ _ h e

/-- Every extrinsic that is dispatched leads to a state the theorems about `Reach` are about. -/
theorem dispatch_reach (h : Reach c D s) (ht : t.OK c D s) (hd : dispatch r c s o t = .ok s') : Reach c D s' := by
  obtain ⟨_, hd⟩ := dispatch_iff.1 hd
  cases t with
  | call k => exact h.step (.call k ht hd)
  | swapIn w route x m => exact (swap_reach h ht (.inl hd)).1
  | swapOut w route x m => exact (swap_reach h ht (.inr hd)).1

/-- **C193.**  Whatever anybody dispatches: if a balance of an account that is not one of the pallets' own falls, the
account has signed the extrinsic itself, or governance has ordered it to pay, or it asked for fast unstaking and is
matched, or its expired derivative tokens are redeemed and lent for it. -/
theorem C193_charged (hc : c.OK D) (h : Reach c D s) (ht : t.OK c D s) (hd : dispatch r c s o t = .ok s')
    {w a : Nat} (hs : ∀ p, ¬ spends c p w) (hlt : s'.ledger.bal a w < s.ledger.bal a w) : Charged r s o t w := by
  obtain ⟨hn, he⟩ := dispatch_iff.1 hd
  clear hd
  cases t with
  | call k =>
    have hk : k.takesFrom s w := by
      by_contra hk
      exact absurd (C190_nobody_else_pays hc h ht he hk hs a) (not_le.2 hlt)
    have ssig : ∀ x, (w : Nat) = x → meets r o (.signer x) = true → Charged r s o (.call k) w := by
      intro x e hm
      subst e
      exact .signed (meets_signer.1 hm)
    cases k with
    | amm k =>
      cases k <;> simp only [Call.takesFrom, Amm.Call.payers, List.mem_singleton, List.not_mem_nil] at hk <;>
        simp only [Tx.need, needAmm] at hn
      case create => exact .ordered (meets_governance.1 hn) (by simp [Tx.ordered, hk])
      case swap => simp [meets] at hn
      all_goals exact ssig _ hk hn
    | stable k =>
      cases k <;> simp only [Call.takesFrom, Stable.Call.payers, List.mem_singleton] at hk <;>
        simp only [Tx.need, needStable] at hn
      case create => exact .ordered (meets_governance.1 hn) (by simp [Tx.ordered, hk])
      case swap => simp [meets] at hn
      all_goals exact ssig _ hk hn
    | farming k =>
      cases k <;> simp only [Call.takesFrom, Farming.Call.payers, List.mem_singleton, List.not_mem_nil] at hk <;>
        simp only [Tx.need, needFarming] at hn
      case dispatch => exact .ordered (meets_governance.1 hn) (by simp [Tx.ordered, hk])
      all_goals exact ssig _ hk hn
    | loans k =>
      cases k <;> simp only [Call.takesFrom, Loans.Call.payers, List.mem_singleton, List.not_mem_nil] at hk <;>
        simp only [Tx.need, needLoans] at hn
      case addReserves => exact .ordered (meets_governance.1 hn) (by simp [Tx.ordered, hk])
      all_goals exact ssig _ hk hn
    | streaming k =>
      cases k <;> simp only [Call.takesFrom, Streaming.Call.payers, List.mem_singleton, List.not_mem_nil] at hk <;>
        simp only [Tx.need, needStreaming] at hn
      case traitCreate => simp [meets] at hn
      all_goals exact ssig _ hk hn
    | staking k =>
      cases k <;> simp only [Call.takesFrom] at hk <;> simp only [Tx.need, needStaking] at hn
      case fastMatch ws => exact .matched ws (meets_agent.1 hn) rfl hk.1 hk.2
      all_goals exact ssig _ hk hn
    | crowdloans k =>
      cases k <;> simp only [Call.takesFrom, Crowdloans.Call.payers, List.mem_singleton, List.not_mem_nil] at hk <;>
        simp only [Tx.need, needCrowdloans] at hn
      case redeemAndLend who k m => rw [hk] at *; exact .lent k m (meets_automator.1 hn) rfl
      all_goals exact ssig _ hk hn
    | bridge k =>
      cases k <;> simp only [Call.takesFrom, Bridge.Call.payers, List.mem_singleton, List.not_mem_nil] at hk
      simp only [Tx.need, needBridge] at hn
      exact ssig _ hk hn
    | bridgeBlock => exact hk.elim
    | bridgeMembers ms => exact hk.elim
  | swapIn x route m n =>
    by_cases e : w = x
    · subst e; exact .signed (meets_signer.1 hn)
    · exact absurd ((swap_reach h ht (.inl he)).2 w e (hs .amm) a) (not_le.2 hlt)
  | swapOut x route m n =>
    by_cases e : w = x
    · subst e; exact .signed (meets_signer.1 hn)
    · exact absurd ((swap_reach h ht (.inr he)).2 w e (hs .amm) a) (not_le.2 hlt)

/-- **C193.**  A transaction signed by `u`, who is neither a liquid staking agent nor a crowdloans automator, lowers no
balance of anybody else (other than the pallets' own accounts). -/
theorem C193_signed (hc : c.OK D) (h : Reach c D s) {u : Nat} (ha : r.agent u = false) (hm : r.automator u = false)
    (ht : t.OK c D s) (hd : dispatch r c s (.signed u) t = .ok s') {w : Nat} (hw : w ≠ u) (hs : ∀ p, ¬ spends c p w)
    (a : Nat) : s.ledger.bal a w ≤ s'.ledger.bal a w := by
  by_contra hlt
  have hg : ¬ Governance (.signed u) := by simp [Governance]
  cases C193_charged hc h ht hd hs (not_le.1 hlt) with
  | signed e => simp only [Origin.signed.injEq] at e; exact hw e.symm
  | ordered e _ => exact hg e
  | matched ws e _ _ _ =>
    rcases e with e | ⟨v, e, e2⟩
    · exact hg e
    · simp only [Origin.signed.injEq] at e; subst e; simp [ha] at e2
  | lent k m e _ =>
    rcases e with e | ⟨v, e, e2⟩
    · exact hg e
    · simp only [Origin.signed.injEq] at e; subst e; simp [hm] at e2

/-- **C193.**  An extrinsic without a signature (a response from the relay chain, a hook, an unsigned extrinsic) or with
too few votes in the council lowers no balance of anybody but the pallets. -/
theorem C193_unsigned (hc : c.OK D) (h : Reach c D s) (hg : ¬ Governance o) (ho : ∀ u, o ≠ .signed u)
    (ht : t.OK c D s) (hd : dispatch r c s o t = .ok s') {w : Nat} (hs : ∀ p, ¬ spends c p w)
    (a : Nat) : s.ledger.bal a w ≤ s'.ledger.bal a w := by
  by_contra hlt
  cases C193_charged hc h ht hd hs (not_le.1 hlt) with
  | signed e => exact ho _ e
  | ordered e _ => exact hg e
  | matched ws e _ _ _ => exact e.elim hg (fun ⟨v, e, _⟩ => ho v e)
  | lent k m e _ => exact e.elim hg (fun ⟨v, e, _⟩ => ho v e)

/-! ## A concrete case: 20 is an agent, 21 an automator -/

def exR : Roles := ⟨fun w => w == 20, fun w => w == 21, 5⟩

/-- The automator 21 redeems and lends for 7, whose derivative tokens fall; 7 has signed nothing. -/
theorem ex_lent : dispatch exR exC ex3 (.signed 21) (.call exLend) = .ok ex4 :=
  dispatch_iff.2 ⟨by decide, ex4_step⟩

example : Tx.OK exC exD ex3 (.call exLend) ∧ (∀ p, ¬ spends exC p 7) ∧ ex4.ledger.bal 50 7 < ex3.ledger.bal 50 7 ∧
    Charged exR ex3 (.signed 21) (.call exLend) 7 :=
  ⟨exLend_ok _, by intro p h; cases p <;> simp only [spends, exC] at h <;> omega, by decide +kernel,
    .lent exK 90 (.inr ⟨21, rfl, by decide⟩) rfl⟩

/-- 8 trades relay tokens for liquid tokens through the router; nobody else can sign for it, and neither the swap of the
AMM pallet nor governance's calls can be made with a signature. -/
def exSwap : Tx := .swapIn 8 [1, 5] 1000 1
example : okAnd (dispatch exR exC ex1 (.signed 8) exSwap) (fun s => decide (s.ledger.bal 1 8 + 1000 = ex1.ledger.bal 1 8) &&
      decide (ex1.ledger.bal 5 8 < s.ledger.bal 5 8) && decide (s.ledger.bal 1 7 = ex1.ledger.bal 1 7)) = true ∧
    dispatch exR exC ex1 (.signed 9) exSwap = .error .badOrigin ∧
    dispatch exR exC ex1 .root exSwap = .error .badOrigin ∧
    dispatch exR exC ex1 (.signed 8) (.call (.amm (.swap 8 1 5 1000))) = .error .badOrigin ∧
    dispatch exR exC ex3 (.signed 7) (.call exLend) = .error .badOrigin ∧
    dispatch exR exC ex3 (.council 2 4) (.call exLend) = .error .badOrigin ∧
    okAnd (dispatch exR exC ex3 (.council 3 4) (.call exLend)) (fun _ => true) = true :=
  ⟨by decide +kernel, rfl, rfl, rfl, rfl, rfl, by decide +kernel⟩

example : exR.agent 8 = false ∧ exR.automator 8 = false ∧ Tx.OK exC exD ex1 exSwap :=
  ⟨rfl, rfl, fun hv => absurd (exC_vaulted hv) (by decide)⟩

end Verif.System
