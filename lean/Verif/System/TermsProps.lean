import Verif.System.TermsSpec
import Verif.System.OriginProps

/-!
# Terms are set by governance (C194), positions are changed by their owners (C195)
-/

namespace Verif.System
open Verif
variable {c : Cfg} {D : Nat → Prop} {s s' : State} {r : Roles} {o : Origin} {t : Tx}

theorem SameTerms.refl : SameTerms s s := ⟨rfl, rfl, rfl, rfl, rfl, rfl, rfl⟩

/-- Swaps along a route keep the terms of the AMM. -/
theorem swapAlong_terms {w : Nat} : ∀ (route xs : List Nat) (x y : Amm.State),
    Router.swapAlong c.amm x w route xs = .ok y → Amm.Terms y = Amm.Terms x
  | [], _, x, y, e => by simp only [Router.swapAlong, Except.ok.injEq] at e; subst e; rfl
  | [_], _, x, y, e => by simp only [Router.swapAlong, Except.ok.injEq] at e; subst e; rfl
  | _ :: _ :: _, [], x, y, e => by simp only [Router.swapAlong, Except.ok.injEq] at e; subst e; rfl
  | a :: b :: rest, m :: xs, x, y, e => by
    simp only [Router.swapAlong, bind_ok_iff, Prod.exists] at e
    obtain ⟨y1, out, h1, h2⟩ := e
    have h4 : Amm.exec c.amm x (.swap w a b m) = .ok y1 := by
      simp only [Amm.exec, bind_ok_iff, pure_ok_iff, Prod.exists]
      exact ⟨y1, out, h1, rfl⟩
    exact (swapAlong_terms (b :: rest) xs y1 y h2).trans (Amm.exec_terms h4 (.inr (.inr ⟨_, _, _, _, rfl⟩)))

/-- What a swap through the router does to the state. -/
theorem swap_put {w : Nat} {route : List Nat} {x m : Nat}
    (hd : Tx.run r c s (.swapIn w route x m) = .ok s' ∨ Tx.run r c s (.swapOut w route x m) = .ok s') :
    ∃ y, s' = s.putAmm y ∧ Amm.Terms y = Amm.Terms s.amm := by
  rcases hd with hd | hd
  · simp only [Tx.run, Router.swapExactIn, bind_ok_iff, pure_ok_iff, ensure_ok_iff, exists_const] at hd
    obtain ⟨y, ⟨_, _, _, _, xs, _, _, e⟩, rfl⟩ := hd
    have e2 := swapAlong_terms _ _ _ _ e
    exact ⟨y, rfl, e2⟩
  · simp only [Tx.run, Router.swapExactOut, bind_ok_iff, pure_ok_iff, ensure_ok_iff, exists_const] at hd
    obtain ⟨y, ⟨_, _, _, xs, _, _, _, e⟩, rfl⟩ := hd
    have e2 := swapAlong_terms _ _ _ _ e
    exact ⟨y, rfl, e2⟩

/-- Streams and their terms under a call of crowdloans. -/
theorem crowd_streams (hc : c.OK D) (h : Reach c D s) {k : Crowdloans.Call} (hk : (Call.crowdloans k).OK c D s)
    (he : exec c s (.crowdloans k) = .ok s') : s'.str.minDep = s.str.minDep ∧
    (∀ id st, s.str.streams id = some st → st.live → s'.str.streams id = some st) ∧
    s'.amm = s.amm ∧ s'.stb = s.stb ∧ s'.farm = s.farm ∧ s'.stk = s.stk ∧ s'.br = s.br := by
  have i := h.inv hc
  have hn : c.cl.acct ≠ c.cl.streaming.acct := by
    intro e
    have := hc.apart .crowdloans .streaming c.cl.acct (.inl rfl) e
    cases this
  have hs : ¬ Crowdloans.srcOf c.cl k c.cl.streaming.acct := by
    rintro (e | e | e)
    · exact hk.actors _ e ⟨.streaming, rfl⟩
    · exact hn e.symm
    · have := hc.apart .crowdloans .streaming c.cl.streaming.acct (.inr e) rfl
      cases this
  by_cases hl : ∃ w v m, k = .redeemAndLend w v m
  · obtain ⟨w, v, m, rfl⟩ := hl
    simp only [exec, crowd, redeemAndLend, bind_ok_iff, pure_ok_iff] at he
    obtain ⟨_, _, x, h1, y, h2, rfl⟩ := he
    have h3 : Crowdloans.exec c.cl s.clV (.redeem w v m) = .ok x := h1
    have := Crowdloans.exec_streams h3 hc.str i.str i.wf hs hn
    exact ⟨this.1, this.2, rfl, rfl, rfl, rfl, rfl⟩
  · have : crowd c s k = (do let x ← Crowdloans.exec c.cl s.clV k; pure (s.putCl x)) := by
      cases k <;> first | rfl | exact absurd ⟨_, _, _, rfl⟩ hl
    simp only [exec, this, bind_ok_iff, pure_ok_iff] at he
    obtain ⟨x, h1, rfl⟩ := he
    have := Crowdloans.exec_streams h1 hc.str i.str i.wf hs hn
    exact ⟨this.1, this.2, rfl, rfl, rfl, rfl, rfl⟩

/-- Who may not make governance's calls. -/
theorem gov_out (hg : ¬ Governance o) (h : meets r o .governance = true) : False := hg (meets_governance.1 h)

/-- What liquid staking does to the lending pallet. -/
theorem stake_lo (hc : c.OK D) (h : Reach c D s) {k : Staking.Call} (hk : (Call.staking k).OK c D s) {x : Staking.State}
    (he : Staking.exec c.stk s.stkV k = .ok x) : Staking.LoPath c.stk s.loV x.lo := by
  have i := h.inv hc
  have hx : c.stk.xcmAcct ≠ c.stk.lo.acct := fun e => by
    have := hc.apart .staking .loans c.stk.xcmAcct (.inr rfl) e
    cases this
  refine (Staking.exec_guar he hc.stk.loans hx (fun hp => ?_)).2.1
  have hv : Vaulted c c.lo.acct := ⟨.loans, rfl⟩
  cases k with
  | stake w' m => exact hk.actors w' (by simp [Call.actors]) (by rw [← show c.lo.acct = w' from hp]; exact hv)
  | unstake w' q p => exact hk.actors w' (by simp [Call.actors]) (by rw [← show c.lo.acct = w' from hp]; exact hv)
  | fastMatch ws => exact hp.2 (i.fast _ hv)
  | _ => exact hp

/-- **C194.**  Whoever is not governance changes no term of any pallet but crowdloans; and whoever is neither governance
nor an automator nor the relay chain answering a request changes no term of crowdloans. -/
theorem C194_terms (hc : c.OK D) (h : Reach c D s) (hg : ¬ Governance o) (ht : t.OK c D s)
    (hd : dispatch r c s o t = .ok s') : SameTerms s s' ∧
    (o ≠ .response → (∀ u, o = .signed u → r.automator u = false) →
      Crowdloans.Terms s'.cl = Crowdloans.Terms s.cl) := by
  obtain ⟨hn, he⟩ := dispatch_iff.1 hd
  clear hd
  cases t with
  | swapIn x route m n =>
    obtain ⟨y, rfl, e⟩ := swap_put (.inl he)
    exact ⟨⟨e, rfl, rfl, rfl, rfl, rfl, rfl⟩, fun _ _ => rfl⟩
  | swapOut x route m n =>
    obtain ⟨y, rfl, e⟩ := swap_put (.inr he)
    exact ⟨⟨e, rfl, rfl, rfl, rfl, rfl, rfl⟩, fun _ _ => rfl⟩
  | call k =>
    cases k with
    | amm k =>
      simp only [Tx.run, exec, bind_ok_iff, pure_ok_iff] at he
      obtain ⟨x, hx, rfl⟩ := he
      have e : Amm.Terms x = Amm.Terms s.ammV := by
        refine Amm.exec_terms hx ?_
        cases k <;> simp only [Tx.need, needAmm] at hn
        case add => exact .inl ⟨_, _, _, _, rfl⟩
        case remove => exact .inr (.inl ⟨_, _, _, rfl⟩)
        case swap => simp [meets] at hn
        all_goals exact (gov_out hg hn).elim
      exact ⟨⟨e, rfl, rfl, rfl, rfl, rfl, rfl⟩, fun _ _ => rfl⟩
    | stable k =>
      simp only [Tx.run, exec, bind_ok_iff, pure_ok_iff] at he
      obtain ⟨x, hx, rfl⟩ := he
      have e : Stable.Terms x = Stable.Terms s.stbV := by
        refine Stable.exec_terms hx ?_
        cases k <;> simp only [Tx.need, needStable] at hn
        case add => exact .inl ⟨_, _, _, _, rfl⟩
        case remove => exact .inr (.inl ⟨_, _, _, rfl⟩)
        case swap => simp [meets] at hn
        all_goals exact (gov_out hg hn).elim
      exact ⟨⟨rfl, e, rfl, rfl, rfl, rfl, rfl⟩, fun _ _ => rfl⟩
    | farming k =>
      simp only [Tx.run, exec, bind_ok_iff, pure_ok_iff] at he
      obtain ⟨x, hx, rfl⟩ := he
      have e : Farming.Terms x = Farming.Terms s.farmV := by
        have hu : ∃ w, k.holder = some w := by
          cases k <;> simp only [Tx.need, needFarming] at hn <;>
            first | exact ⟨_, rfl⟩ | exact (gov_out hg hn).elim
        obtain ⟨w, hw⟩ := hu
        exact (Farming.exec_terms hx hw).1
      exact ⟨⟨rfl, rfl, e, rfl, rfl, rfl, rfl⟩, fun _ _ => rfl⟩
    | loans k =>
      simp only [Tx.run, exec, bind_ok_iff, pure_ok_iff] at he
      obtain ⟨x, hx, rfl⟩ := he
      have e : Loans.Terms x = Loans.Terms s.loV := by
        refine (Loans.exec_leavesOthers hx ?_).terms
        cases k <;> simp only [Tx.need, needLoans] at hn <;> first | rfl | exact (gov_out hg hn).elim
      exact ⟨⟨rfl, rfl, rfl, e, rfl, rfl, rfl⟩, fun _ _ => rfl⟩
    | streaming k =>
      simp only [Tx.run, exec, bind_ok_iff, pure_ok_iff] at he
      obtain ⟨x, hx, rfl⟩ := he
      have e : x.minDep = s.strV.minDep := by
        refine Streaming.exec_terms hx ?_
        rintro a m rfl
        exact gov_out hg hn
      exact ⟨⟨rfl, rfl, rfl, rfl, e, rfl, rfl⟩, fun _ _ => rfl⟩
    | staking k =>
      simp only [Tx.run, exec, bind_ok_iff, pure_ok_iff] at he
      obtain ⟨x, hx, rfl⟩ := he
      have e1 : Staking.Settings x = Staking.Settings s.stkV := by
        refine Staking.C180_frame ?_ hx
        intro hs
        cases k <;> simp only [Staking.Call.sets] at hs <;> exact gov_out hg hn
      have e2 : Loans.Terms x.lo = Loans.Terms s.loV := (stake_lo hc h ht hx).leaves.terms
      exact ⟨⟨rfl, rfl, rfl, e2, rfl, e1, rfl⟩, fun _ _ => rfl⟩
    | crowdloans k =>
      obtain ⟨h1, _, h3, h4, h5, h6, h7⟩ := crowd_streams hc h ht he
      have hlo : Loans.Terms s'.lo = Loans.Terms s.lo := by
        by_cases hl : ∃ w v m, k = .redeemAndLend w v m
        · obtain ⟨w, v, m, rfl⟩ := hl
          simp only [Tx.run, exec, crowd, redeemAndLend, bind_ok_iff, pure_ok_iff] at he
          obtain ⟨_, _, x, _, y, h2, rfl⟩ := he
          have := (Loans.mint_leavesOthers (A := fun _ => True) h2 trivial).terms
          exact this
        · have : crowd c s k = (do let x ← Crowdloans.exec c.cl s.clV k; pure (s.putCl x)) := by
            cases k <;> first | rfl | exact absurd ⟨_, _, _, rfl⟩ hl
          simp only [Tx.run, exec, this, bind_ok_iff, pure_ok_iff] at he
          obtain ⟨x, _, rfl⟩ := he
          rfl
      refine ⟨⟨by rw [h3], by rw [h4], by rw [h5], hlo, h1, by rw [h6], by rw [h7]⟩, fun ho ha => ?_⟩
      have hau : meets r o .automator = true → False := by
        intro hm
        rcases meets_automator.1 hm with e | ⟨u, e, e2⟩
        · exact hg e
        · rw [ha u e] at e2; cases e2
      have hre : meets r o .response = true → False := by
        intro hm
        rcases meets_response.1 hm with e | e
        · exact hg e
        · exact ho e
      cases k <;> simp only [Tx.need, needCrowdloans] at hn <;>
        first
        | exact (hau hn).elim
        | exact (hre hn).elim
        | exact (gov_out hg hn).elim
        | skip
      all_goals
        simp only [Tx.run, exec, crowd, bind_ok_iff, pure_ok_iff] at he
        obtain ⟨x, hx, rfl⟩ := he
      case contribute w p m q => exact (Crowdloans.exec_leavesOthers hx (.inl ⟨_, _, _, rfl⟩)).terms
      case claim w v => exact (Crowdloans.exec_leavesOthers hx (.inr (.inl ⟨_, rfl⟩))).terms
      case withdraw w v => exact (Crowdloans.exec_leavesOthers hx (.inr (.inr (.inl ⟨_, rfl⟩)))).terms
      case redeem w v m => exact (Crowdloans.exec_leavesOthers hx (.inr (.inr (.inr ⟨_, _, rfl⟩)))).terms
    | bridge k =>
      simp only [Tx.run, exec, bind_ok_iff, pure_ok_iff] at he
      obtain ⟨x, hx, rfl⟩ := he
      have e : Bridge.Terms x = Bridge.Terms s.brV := by
        refine Bridge.exec_terms hx ?_
        cases k
        case teleport => exact .inl ⟨_, _, _, _, _, rfl⟩
        case materialize => exact .inr ⟨_, _, _, _, _, rfl⟩
        all_goals exact (gov_out hg hn).elim
      exact ⟨⟨rfl, rfl, rfl, rfl, rfl, rfl, e⟩, fun _ _ => rfl⟩
    | bridgeBlock =>
      cases he
      exact ⟨⟨rfl, rfl, rfl, rfl, rfl, rfl, Bridge.newBlock_terms⟩, fun _ _ => rfl⟩
    | bridgeMembers ms => exact (gov_out hg hn).elim

/-- **C195.**  What an ordinary user `u` signs changes nothing that the pallets keep for somebody else, `w`, except: `u`
liquidates `w`, sends `w` ptokens, has `w`'s contribution to a crowdloan paid out to `w`, or settles a stream between
the two. -/
theorem C195_positions (hc : c.OK D) (h : Reach c D s) {u w : Nat} (ha : r.agent u = false) (hm : r.automator u = false)
    (hw : w ≠ u) (hs : ∀ p, ¬ spends c p w) (ht : t.OK c D s) (hd : dispatch r c s (.signed u) t = .ok s') :
    SameElsewhere u w s s' ∧
    (SameLoans w s s' ∨ (∃ a m k, t = .call (.loans (.liquidate u w a m k))) ∨
      ∃ p m, t = .call (.loans (.transferP p u w m))) ∧
    (SameContributions w s s' ∨ (∃ k, t = .call (.crowdloans (.claim w k))) ∨
      ∃ k, t = .call (.crowdloans (.withdraw w k))) := by
  obtain ⟨hn, he⟩ := dispatch_iff.1 hd
  clear hd
  have i := h.inv hc
  have hg : ¬ Governance (.signed u) := by simp [Governance]
  have sg : ∀ {x}, meets r (.signed u) (.signer x) = true → u = x := by
    intro x hx
    have := meets_signer.1 hx
    simpa using this
  have hag : meets r (.signed u) .agent = true → False := by
    intro e; simp [meets, ha] at e
  have hau : meets r (.signed u) .automator = true → False := by
    intro e; simp [meets, hm] at e
  have sl : ∀ {x : State}, x.lo = s.lo → SameLoans w s x := fun e =>
    ⟨fun _ => by rw [e], fun _ => by rw [e], by rw [e]⟩
  have sc : SameContributions w s s := fun _ _ => rfl
  cases t with
  | swapIn x route m n =>
    obtain ⟨y, rfl, e⟩ := swap_put (.inl he)
    exact ⟨⟨fun _ => rfl, rfl, rfl, fun _ _ h1 _ _ _ _ => h1⟩, .inl (sl rfl), .inl sc⟩
  | swapOut x route m n =>
    obtain ⟨y, rfl, e⟩ := swap_put (.inr he)
    exact ⟨⟨fun _ => rfl, rfl, rfl, fun _ _ h1 _ _ _ _ => h1⟩, .inl (sl rfl), .inl sc⟩
  | call k =>
    cases k with
    | amm k =>
      simp only [Tx.run, exec, bind_ok_iff, pure_ok_iff] at he
      obtain ⟨x, hx, rfl⟩ := he
      exact ⟨⟨fun _ => rfl, rfl, rfl, fun _ _ h1 _ _ _ _ => h1⟩, .inl (sl rfl), .inl sc⟩
    | stable k =>
      simp only [Tx.run, exec, bind_ok_iff, pure_ok_iff] at he
      obtain ⟨x, hx, rfl⟩ := he
      exact ⟨⟨fun _ => rfl, rfl, rfl, fun _ _ h1 _ _ _ _ => h1⟩, .inl (sl rfl), .inl sc⟩
    | farming k =>
      simp only [Tx.run, exec, bind_ok_iff, pure_ok_iff] at he
      obtain ⟨x, hx, rfl⟩ := he
      have hu : k.holder = some u := by
        cases k <;> simp only [Tx.need, needFarming] at hn <;>
          first | (rw [sg hn]; rfl) | exact (gov_out hg hn).elim
      exact ⟨⟨fun k' => (Farming.exec_terms hx hu).2 k' w hw, rfl, rfl, fun _ _ h1 _ _ _ _ => h1⟩, .inl (sl rfl), .inl sc⟩
    | loans k =>
      simp only [Tx.run, exec, bind_ok_iff, pure_ok_iff] at he
      obtain ⟨x, hx, rfl⟩ := he
      refine ⟨⟨fun _ => rfl, rfl, rfl, fun _ _ h1 _ _ _ _ => h1⟩, ?_, .inl sc⟩
      have hi : w ≠ c.lo.incentiveAcct := fun e => hs .loans (.inr (.inr e))
      have hset : k.setsTerms = false := by
        cases k <;> simp only [Tx.need, needLoans] at hn <;> first | rfl | exact (gov_out hg hn).elim
      have hl := Loans.exec_leavesOthers hx hset
      by_cases hab : w ∈ k.about c.lo
      · refine .inr ?_
        have hor : ∀ {y}, meets r (.signed u) (.signerOrGovernance y) = true → u = y := by
          intro y hy
          simpa [meets, Origin.governs] using hy
        cases k <;> simp only [Tx.need, needLoans] at hn <;>
          simp only [Loans.Call.about, List.mem_cons, List.not_mem_nil, or_false] at hab
        case liquidate l b a m k =>
          have := sg hn; subst this
          rcases hab with e | e | e
          · exact absurd e hw
          · subst e; exact .inl ⟨_, _, _, rfl⟩
          · exact absurd e hi
        case transferP p x y m =>
          have := sg hn; subst this
          rcases hab with e | e
          · exact absurd e hw
          · subst e; exact .inr ⟨_, _, rfl⟩
        all_goals first
          | exact absurd hab hi
          | exact absurd (hab.trans (sg hn).symm) hw
          | exact absurd (hab.trans (hor hn).symm) hw
      · exact .inl ⟨fun a => hl.deps a w hab, fun a => hl.debts a w hab, hl.accrued w hab⟩
    | streaming k =>
      simp only [Tx.run, exec, bind_ok_iff, pure_ok_iff] at he
      obtain ⟨x, hx, rfl⟩ := he
      refine ⟨⟨fun _ => rfl, rfl, rfl, fun id st h1 h2 h3 h4 h5 => ?_⟩, .inl (sl rfl), .inl sc⟩
      have hk : k.signerOK c.str := by
        have e1 : ∀ w, ¬ Vaulted c w → w ≠ c.str.acct := fun w hw => not_vaulted_ne (p := .streaming) hw rfl
        cases k <;> first | exact trivial | exact e1 _ (ht.actors _ (by simp [Call.actors]))
      rcases Streaming.C23_only_parties hc.str i.str hk hx (st := st) h1 with e | e | e | e
      · exact e
      · exact absurd h2 e.1
      · obtain ⟨_, ⟨amt, rfl⟩, _⟩ := e
        exact absurd (sg hn) h5
      · obtain ⟨_, _, rfl, _⟩ := e
        exact absurd (sg hn) h4
    | staking k =>
      simp only [Tx.run, exec, bind_ok_iff, pure_ok_iff] at he
      obtain ⟨x, hx, rfl⟩ := he
      have hl := (stake_lo hc h ht hx).leaves
      have hw2 : ¬ w = c.stk.acct := fun e => hs .staking (.inl e)
      have hk : (∃ m, k = .stake u m) ∨ (∃ q p, k = .unstake u q p) ∨ ∃ m, k = .cancelUnstake u m := by
        cases k <;> simp only [Tx.need, needStaking] at hn
        case stake => rw [sg hn]; exact .inl ⟨_, rfl⟩
        case unstake => rw [sg hn]; exact .inr (.inl ⟨_, _, rfl⟩)
        case cancelUnstake => rw [sg hn]; exact .inr (.inr ⟨_, rfl⟩)
        all_goals first
          | exact (hag hn).elim
          | exact (gov_out hg hn).elim
          | (simp [meets, Origin.governs] at hn)
      obtain ⟨e1, e2⟩ := Staking.exec_pos hx hk hw (fun e => hs .loans (.inl e))
      exact ⟨⟨fun _ => rfl, e1, e2, fun _ _ h1 _ _ _ _ => h1⟩,
        .inl ⟨fun a => hl.deps a w hw2, fun a => hl.debts a w hw2, hl.accrued w hw2⟩, .inl sc⟩
    | crowdloans k =>
      obtain ⟨h1, h2, h3, h4, h5, h6, h7⟩ := crowd_streams hc h ht he
      refine ⟨⟨fun _ => by rw [h5], by rw [h6], by rw [h6], fun id st e1 e2 _ _ _ => h2 id st e1 e2⟩, ?_⟩
      cases k <;> simp only [Tx.need, needCrowdloans] at hn <;>
        first
        | exact (hau hn).elim
        | exact (gov_out hg hn).elim
        | (exfalso; simp [meets, Origin.governs] at hn; done)
        | skip
      all_goals
        simp only [Tx.run, exec, crowd, bind_ok_iff, pure_ok_iff] at he
        obtain ⟨y, hx, rfl⟩ := he
        refine ⟨.inl (sl rfl), ?_⟩
      case contribute x p m q =>
        have := sg hn; subst this
        exact .inl (fun t' k' => (Crowdloans.exec_leavesOthers hx (.inl ⟨_, _, _, rfl⟩)).child t' k' w hw)
      case claim x v =>
        by_cases e : w = x
        · subst e; exact .inr (.inl ⟨_, rfl⟩)
        · exact .inl (fun t' k' => (Crowdloans.exec_leavesOthers hx (.inr (.inl ⟨_, rfl⟩))).child t' k' w e)
      case withdraw x v =>
        by_cases e : w = x
        · subst e; exact .inr (.inr ⟨_, rfl⟩)
        · exact .inl (fun t' k' => (Crowdloans.exec_leavesOthers hx (.inr (.inr (.inl ⟨_, rfl⟩)))).child t' k' w e)
      case redeem x v m =>
        have := sg hn; subst this
        exact .inl (fun t' k' => (Crowdloans.exec_leavesOthers hx (.inr (.inr (.inr ⟨_, _, rfl⟩)))).child t' k' w hw)
    | bridge k =>
      simp only [Tx.run, exec, bind_ok_iff, pure_ok_iff] at he
      obtain ⟨x, hx, rfl⟩ := he
      exact ⟨⟨fun _ => rfl, rfl, rfl, fun _ _ h1 _ _ _ _ => h1⟩, .inl (sl rfl), .inl sc⟩
    | bridgeBlock =>
      cases he
      exact ⟨⟨fun _ => rfl, rfl, rfl, fun _ _ h1 _ _ _ _ => h1⟩, .inl (sl rfl), .inl sc⟩
    | bridgeMembers ms => exact (gov_out hg hn).elim

/-- **C195, incoming ptokens.**  They only add to a deposit: no deposit of the receiver shrinks or changes its collateral
flag, no debt changes. -/
theorem C195_received {p u w m : Nat} (hw : w ≠ u) (he : exec c s (.loans (.transferP p u w m)) = .ok s') (a : Nat) :
    s.lo.vouchers a w ≤ s'.lo.vouchers a w ∧ (s'.lo.dep a w).coll = (s.lo.dep a w).coll ∧
    s'.lo.debts a w = s.lo.debts a w := by
  simp only [exec, bind_ok_iff, pure_ok_iff, Loans.exec, Loans.transferP, Loans.underlyingId, cadd_ok_iff] at he
  obtain ⟨x, ⟨_, _, s1, h1, s2, h2, s3, h3, b, hb, _, _, y, ⟨_, rfl⟩, rfl⟩, rfl⟩ := he
  obtain ⟨r1, rfl⟩ := ((Loans.updSupply_rw h1).trans (Loans.distSupplier_rw h2)).trans (Loans.distSupplier_rw h3)
  have key : ∀ (d : Option Loans.Deposit) (m' : Nat) (x : Loans.State), x.deposits = s.lo.deposits →
      (Loans.setDep (Loans.setDep x b u d) b w (some { (Loans.setDep x b u d).dep b w with
        vouchers := (Loans.setDep x b u d).vouchers b w + m' })).dep a w =
      if a = b then { s.lo.dep b w with vouchers := s.lo.vouchers b w + m' } else s.lo.dep a w := by
    intro d m' x hx
    have e1 : (Loans.setDep x b u d).dep b w = s.lo.dep b w := by
      unfold Loans.State.dep Loans.setDep
      dsimp only
      rw [upd2_of_ne _ _ (.inr hw), hx]
    have e2 : (Loans.setDep x b u d).vouchers b w = s.lo.vouchers b w := by
      unfold Loans.State.vouchers; rw [e1]
    rw [e1, e2]
    unfold Loans.State.dep
    unfold Loans.setDep
    dsimp only
    split_ifs with e
    · subst e; rw [upd2_same]; rfl
    · rw [upd2_of_ne _ _ (.inl e), upd2_of_ne _ _ (.inl e), hx]
  have k := key ((Loans.State.dep { s.loV with rw := r1 } b u).minus m) m { s.loV with rw := r1 } rfl
  refine ⟨le_of_le_of_eq ?_ (congrArg Loans.Deposit.vouchers k).symm, (congrArg Loans.Deposit.coll k).trans ?_, rfl⟩
  · split_ifs with e
    · subst e; exact Nat.le_add_right _ _
    · exact le_refl _
  · split_ifs with e
    · subst e; rfl
    · rfl

/-! ## A concrete case -/

/-- 8 may trade, but not change the fee of the AMM; the council may. -/
example : ¬ Governance (.signed 8) ∧ Tx.OK exC exD ex1 exSwap ∧ (ex1.amm.pools (5, 1)).map (fun p => p.lp) = some 60 ∧
    okAnd (dispatch exR exC ex1 (.signed 8) exSwap) (fun s => decide (s.amm.fee = ex1.amm.fee)) = true ∧
    dispatch exR exC ex1 (.signed 8) (.call (.amm (.setFee 5))) = .error .badOrigin ∧
    okAnd (dispatch exR exC ex1 (.council 3 5) (.call (.amm (.setFee 5)))) (fun s => decide (s.amm.fee ≠ ex1.amm.fee)) = true :=
  ⟨by simp [Governance], fun hv => absurd (exC_vaulted hv) (by decide), by decide +kernel, by decide +kernel, rfl,
    by decide +kernel⟩

/-- 9 supplies to the market in which 8 has a deposit; 8 farms and contributes too, 7 has a farming position and
contributions; 8 sends 7 ptokens. -/
def exMint : Tx := .call (.loans (.mint 9 1 500))
def exSend : Call := .loans (.transferP 11 8 7 100)
example : okAnd (dispatch exR exC ex1 (.signed 9) exMint) (fun s => decide (s.lo.vouchers 1 9 ≠ ex1.lo.vouchers 1 9) &&
      decide (s.lo.vouchers 1 8 = ex1.lo.vouchers 1 8)) = true ∧
    ex1.lo.vouchers 1 8 ≠ 0 ∧ exR.agent 9 = false ∧ exR.automator 9 = false ∧ (∀ p, ¬ spends exC p 8) ∧
    (ex1.farm.pos exF 7).dep ≠ 0 ∧ (Crowdloans.getEntry (ex1.cl.child (0, .flying)) 7).amt ≠ 0 ∧
    dispatch exR exC ex1 (.signed 9) (.call (.loans (.redeem 8 1 100))) = .error .badOrigin ∧
    okAnd (exec exC ex1 exSend) (fun s => decide (s.lo.vouchers 1 7 = ex1.lo.vouchers 1 7 + 100)) = true :=
  ⟨by decide +kernel, by decide +kernel, rfl, rfl, by intro p h; cases p <;> simp only [spends, exC] at h <;> omega,
    by decide +kernel, by decide +kernel, rfl, by decide +kernel⟩

example : exMint.OK exC exD ex1 := by
  have av : ∀ {w}, w < 1000 → ¬ Vaulted exC w := fun hw hv => absurd (exC_vaulted hv) (by omega)
  constructor <;> simp [Call.actors, Loans.Call.signers, av, Loans.Call.wt]

end Verif.System
