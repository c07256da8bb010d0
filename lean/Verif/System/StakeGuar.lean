import Verif.System.LoansTerms
import Verif.Loans.Views
import Verif.Staking.Spec

/-! # What liquid staking guarantees to everybody else -/

namespace Verif.Staking
open Verif Verif.System

/-- The accounts a call may take tokens from, other than the pallet's own, in state `s`: stakers, unstakers, and
accounts whose pending fast-unstake requests are matched. -/
def Call.pays (s : State) : Call → Nat → Prop
  | .stake w _ => fun x => x = w
  | .unstake w _ _ => fun x => x = w
  | .fastMatch ws => fun x => x ∈ ws ∧ s.fast x ≠ none
  | _ => fun _ => False

/-- A part of a call that does not touch the lending pallet. -/
structure Quiet (src cur : Nat → Prop) (s s' : State) : Prop where
  guar : Guar src cur s.tok s'.tok
  lo : s'.lo = { s.lo with ledger := s'.tok }
  fast : ∀ w, s.fast w = none → s'.fast w = none
  ids : s.nextId ≤ s'.nextId
  reqs : ∀ x ∈ s'.reqs, x ∈ s.reqs ∨ s.nextId ≤ x.1

variable {c : Cfg} {s s' : State} {src cur : Nat → Prop}

theorem Quiet.refl : Quiet src cur s s := ⟨Guar.refl, rfl, fun _ h => h, le_refl _, fun _ h => .inl h⟩

theorem Quiet.trans {s1 s2 : State} (h : Quiet src cur s s1) (g : Quiet src cur s1 s2) : Quiet src cur s s2 :=
  ⟨h.guar.trans g.guar, by rw [g.lo, h.lo], fun w e => g.fast w (h.fast w e), le_trans h.ids g.ids,
    fun x hx => (g.reqs x hx).elim (h.reqs x) (fun hi => .inr (le_trans h.ids hi))⟩

theorem Quiet.of (hs : s'.lo = s.lo) (hf : s'.fast = s.fast) (hi : s'.nextId = s.nextId)
    (hr : ∀ x ∈ s'.reqs, x ∈ s.reqs := by exact fun _ h => h) : Quiet src cur s s' :=
  ⟨by simp only [State.tok, hs]; exact Guar.refl, by simp only [State.tok, hs], fun w e => by rw [hf, e],
    le_of_eq hi.symm, fun x hx => .inl (hr x hx)⟩

theorem Quiet.tok {l : Ledger} (h : Guar src cur s.tok l) : Quiet src cur s (s.setTok l) :=
  ⟨h, rfl, fun _ e => e, le_refl _, fun _ h => .inl h⟩

/-- What the pallet may mint and burn. -/
structure Curs (c : Cfg) (cur : Nat → Prop) : Prop where
  staking : cur c.staking
  liquid : cur c.liquid

theorem send_quiet {r : Req} (h : send c s r = .ok s') (hx : src c.xcmAcct) (hc : Curs c cur) :
    Quiet src cur s s' := by
  simp only [send, bind_ok_iff, pure_ok_iff] at h
  obtain ⟨l, hl, _, _, rfl⟩ := h
  split at hl
  · cases hl
    rename_i hl
    exact (Quiet.tok (Guar.burn hl hx hc.staking)).trans
      ⟨Guar.refl, rfl, fun _ e => e, Nat.le_succ _, fun x hx => by
        rcases List.mem_append.1 hx with h | h
        · exact .inl h
        · rw [List.mem_singleton] at h; subst h; exact .inr (le_refl _)⟩
  · simp at hl

theorem send_quiet' {p : Pool} {r : Req} (h : send c { s with pool := p } r = .ok s') (hx : src c.xcmAcct)
    (hc : Curs c cur) : Quiet src cur s s' :=
  (Quiet.of (s := s) (s' := { s with pool := p }) rfl rfl rfl).trans (send_quiet h hx hc)

theorem doBondExtra_quiet {i m : Nat} (h : doBondExtra c s i m = .ok s') (hx : src c.xcmAcct) (hc : Curs c cur) :
    Quiet src cur s s' := by
  unfold doBondExtra at h
  split_ifs at h
  · cases h; exact Quiet.refl
  · simp only [bind_ok_iff] at h
    obtain ⟨_, _, _, _, _, _, _, _, h⟩ := h
    exact send_quiet' h hx hc

theorem doBond_quiet {i m : Nat} (h : doBond c s i m = .ok s') (hx : src c.xcmAcct) (hc : Curs c cur) :
    Quiet src cur s s' := by
  unfold doBond at h
  split_ifs at h
  · cases h; exact Quiet.refl
  · exact doBondExtra_quiet h hx hc
  · simp only [bind_ok_iff] at h
    obtain ⟨_, _, _, _, _, _, _, _, h⟩ := h
    exact send_quiet' h hx hc

theorem doUnbond_quiet {i m : Nat} (h : doUnbond c s i m = .ok s') (hx : src c.xcmAcct) (hc : Curs c cur) :
    Quiet src cur s s' := by
  unfold doUnbond at h
  split_ifs at h
  · cases h; exact Quiet.refl
  · simp only [bind_ok_iff] at h
    obtain ⟨_, _, _, _, _, _, _, _, _, _, h⟩ := h
    exact send_quiet' h hx hc

theorem doRebond_quiet {i m : Nat} (h : doRebond c s i m = .ok s') (hx : src c.xcmAcct) (hc : Curs c cur) :
    Quiet src cur s s' := by
  unfold doRebond at h
  split_ifs at h
  · cases h; exact Quiet.refl
  · simp only [bind_ok_iff] at h
    obtain ⟨_, _, _, _, _, _, h⟩ := h
    exact send_quiet' h hx hc

theorem doWithdraw_quiet {i : Nat} (h : doWithdraw c s i = .ok s') (hx : src c.xcmAcct) (hc : Curs c cur) :
    Quiet src cur s s' := by
  unfold doWithdraw at h
  split_ifs at h
  · cases h; exact Quiet.refl
  · simp only [bind_ok_iff] at h
    obtain ⟨_, _, _, _, h⟩ := h
    exact send_quiet h hx hc

theorem doNominate_quiet {i : Nat} (h : doNominate c s i = .ok s') (hx : src c.xcmAcct) (hc : Curs c cur) :
    Quiet src cur s s' := by
  simp only [doNominate, bind_ok_iff] at h
  obtain ⟨_, _, _, _, h⟩ := h
  exact send_quiet h hx hc

theorem forEach_quiet {α : Type} {f : State → α → R State}
    (hf : ∀ s x s', f s x = .ok s' → Quiet src cur s s') :
    ∀ {xs : List α} {s s' : State}, forEach f s xs = .ok s' → Quiet src cur s s'
  | [], s, s', h => by cases h; exact Quiet.refl
  | x :: xs, s, s', h => by
    simp only [forEach, bind_ok_iff] at h
    obtain ⟨s1, h1, h2⟩ := h
    exact (hf _ _ _ h1).trans (forEach_quiet hf h2)

theorem doMatching_quiet (h : doMatching c s = .ok s') (hx : src c.xcmAcct) (hc : Curs c cur) :
    Quiet src cur s s' := by
  simp only [doMatching, bind_ok_iff] at h
  obtain ⟨_, _, s1, h1, s2, h2, s3, h3, h4⟩ := h
  have q1 : Quiet src cur s s1 := by
    refine (Quiet.of (s := s) (s' := { s with matched := true }) rfl rfl rfl).trans ?_
    unfold multiBond at h1
    split_ifs at h1
    · cases h1; exact Quiet.refl
    · exact forEach_quiet (fun _ _ _ h => doBond_quiet h hx hc) h1
  have q2 : Quiet src cur s1 s2 := by
    unfold multiRebond at h2
    split_ifs at h2
    · cases h2; exact Quiet.refl
    · exact forEach_quiet (fun _ _ _ h => doRebond_quiet h hx hc) h2
  have q3 : Quiet src cur s2 s3 := by
    unfold multiUnbond at h3
    split_ifs at h3
    · cases h3; exact Quiet.refl
    · exact forEach_quiet (fun _ _ _ h => doUnbond_quiet h hx hc) h3
  exact ((q1.trans q2).trans q3).trans (forEach_quiet (fun _ _ _ h => doWithdraw_quiet h hx hc) h4)

theorem advanceEra_quiet {n : Nat} : Quiet src cur s (advanceEra c s n) := by
  unfold advanceEra
  split_ifs
  · exact Quiet.refl
  · exact Quiet.of rfl rfl rfl

theorem updLedger_quiet {i : Nat} {f : SLedger → R SLedger} (h : updLedger s i f = .ok s') : Quiet src cur s s' := by
  simp only [updLedger, bind_ok_iff, pure_ok_iff] at h
  obtain ⟨_, _, _, _, rfl⟩ := h
  exact Quiet.of rfl rfl rfl

theorem applyReq_quiet {r : Req} (h : applyReq c s r = .ok s') (ha : src c.acct) (hc : Curs c cur) :
    Quiet src cur s s' := by
  cases r with
  | bond i m =>
    simp only [applyReq, bind_ok_iff, pure_ok_iff] at h
    obtain ⟨_, _, _, _, l, hl, rfl⟩ := h
    exact (Quiet.tok (Guar.burn hl ha hc.staking)).trans (Quiet.of rfl rfl rfl)
  | bondExtra i m =>
    simp only [applyReq, bind_ok_iff, pure_ok_iff] at h
    obtain ⟨s1, h1, _, _, l, hl, rfl⟩ := h
    exact ((updLedger_quiet h1).trans (Quiet.tok (Guar.burn hl ha hc.staking))).trans (Quiet.of rfl rfl rfl)
  | unbond i m =>
    simp only [applyReq, bind_ok_iff, pure_ok_iff] at h
    obtain ⟨_, _, s1, h1, _, _, rfl⟩ := h
    exact (updLedger_quiet h1).trans (Quiet.of rfl rfl rfl)
  | rebond i m =>
    simp only [applyReq, bind_ok_iff, pure_ok_iff] at h
    obtain ⟨s1, h1, _, _, rfl⟩ := h
    exact (updLedger_quiet h1).trans (Quiet.of rfl rfl rfl)
  | withdraw i =>
    simp only [applyReq, applyWithdraw, bind_ok_iff] at h
    obtain ⟨_, _, l, hl, h⟩ := h
    exact (Quiet.tok (Guar.mint hl hc.staking)).trans (updLedger_quiet h)
  | nominate i =>
    simp only [applyReq, Except.ok.injEq] at h
    subst h; exact Quiet.refl

theorem notify_quiet {q : Nat} {ok : Bool} (h : notify c s q ok = .ok s') (ha : src c.acct) (hc : Curs c cur) :
    Quiet src cur s s' := by
  unfold notify at h
  split at h
  · cases h; exact Quiet.refl
  · split_ifs at h
    · cases h; exact Quiet.refl
    · simp only [bind_ok_iff, pure_ok_iff] at h
      obtain ⟨s1, h1, rfl⟩ := h
      exact (applyReq_quiet h1 ha hc).trans (Quiet.of rfl rfl rfl (fun _ h => (List.mem_filter.1 h).1))

theorem onInit_quiet (hx : src c.xcmAcct) (hc : Curs c cur) : Quiet src cur s (onInit c s) := by
  unfold onInit
  rcases commit_cases s (initBlock c s) with h | h
  · generalize commit s (initBlock c s) = s2 at h ⊢
    simp only [initBlock, bind_ok_iff, pure_ok_iff] at h
    obtain ⟨s1, h1, rfl⟩ := h
    refine Quiet.trans ?_ advanceEra_quiet
    unfold initMatching at h1
    split_ifs at h1
    · exact doMatching_quiet h1 hx hc
    · cases h1; exact Quiet.refl
  · rw [h.1]; exact Quiet.refl

theorem settleFast_quiet {w q : Nat} (h : settleFast c s w q = .ok s') (ha : src c.acct) (hw : src w)
    (hc : Curs c cur) : Quiet src cur s s' := by
  simp only [settleFast, bind_ok_iff, pure_ok_iff] at h
  obtain ⟨l1, h1, l2, h2, _, _, _, _, l3, h3, rfl⟩ := h
  exact (Quiet.tok (((Guar.burn h1 hw hc.liquid).trans (Guar.transfer h2 hw)).trans (Guar.transfer h3 ha))).trans
    (Quiet.of rfl rfl rfl)

theorem fastMatch_quiet {w : Nat} (h : fastMatch c s w = .ok s') (ha : src c.acct) (hw : s.fast w ≠ none → src w)
    (hc : Curs c cur) : Quiet src cur s s' ∧ ∀ x, s.fast x = none → s'.fast x = none := by
  unfold fastMatch at h
  cases e : s.fast w with
  | none => rw [e] at h; cases h; exact ⟨Quiet.refl, fun _ h => h⟩
  | some b =>
    rw [e] at h
    simp only [fastMatchOf, bind_ok_iff, pure_ok_iff] at h
    obtain ⟨_, _, _, _, s1, h1, rfl⟩ := h
    have hw := hw (by rw [e]; simp)
    have q : Quiet src cur s s1 := by
      unfold trySettle at h1
      split_ifs at h1
      · cases h1; exact Quiet.refl
      · exact settleFast_quiet h1 ha hw hc
    have hf : ∀ x r, s.fast x = none → upd s.fast w r x = none := by
      intro x r hx
      have : x ≠ w := by rintro rfl; rw [e] at hx; cases hx
      rw [upd_of_ne _ _ this]; exact hx
    exact ⟨⟨q.guar, q.lo, fun x hx => hf x _ hx, q.ids, q.reqs⟩, fun x hx => hf x _ hx⟩

theorem fastMatchAll_quiet (ha : src c.acct) (hc : Curs c cur) :
    ∀ {ws : List Nat} {s s' : State}, fastMatchAll c s ws = .ok s' → (∀ w ∈ ws, s.fast w ≠ none → src w) →
      Quiet src cur s s'
  | [], s, s', h, _ => by cases h; exact Quiet.refl
  | w :: ws, s, s', h, hw => by
    simp only [fastMatchAll, bind_ok_iff] at h
    obtain ⟨s1, h1, h2⟩ := h
    obtain ⟨q, hf⟩ := fastMatch_quiet (src := src) (cur := cur) h1 ha (hw w (by simp)) hc
    exact q.trans (fastMatchAll_quiet ha hc h2 (fun x hx he => hw x (by simp [hx])
      (fun e => he (hf x e))))

theorem stake_quiet {w m : Nat} (h : stake c s w m = .ok s') (hw : src w) (hc : Curs c cur) :
    Quiet src cur s s' := by
  simp only [stake, bind_ok_iff, pure_ok_iff] at h
  obtain ⟨_, _, _, _, l1, h1, l2, h2, _, _, _, _, _, _, l3, h3, _, _, _, _, rfl⟩ := h
  exact (Quiet.tok (((Guar.transfer h1 hw).trans (Guar.transfer h2 hw)).trans (Guar.mint h3 hc.liquid))).trans
    (Quiet.of rfl rfl rfl)

/-! ### Calls that use the lending pallet -/

theorem tryCollateral_ledger {x : Loans.State} : (tryCollateral c x).ledger = x.ledger := by
  unfold tryCollateral
  rcases commit_cases x (Loans.setCollateral c.lo x c.acct c.collateral true) with h | h
  · exact Loans.setCollateral_ledger h
  · rw [h.1]

/-- How the lending pallet's state changes during a staking call: by ledger changes that take nothing from the lending
pallet's account, and by calls signed by the staking pallet. -/
inductive LoPath (c : Cfg) : Loans.State → Loans.State → Prop
  | ledger {x : Loans.State} {l : Ledger} (h : Guar (fun w => w ≠ c.lo.acct) (fun _ => True) x.ledger l) :
      LoPath c x { x with ledger := l }
  | call {x x' : Loans.State} (k : Loans.Call) (hk : ∀ w ∈ k.signers, w = c.acct) (hw : k.wt)
      (hb : k.setsTerms = false ∧ ∀ w ∈ k.about c.lo, w = c.acct)
      (h : Loans.exec c.lo x k = .ok x') : LoPath c x x'
  | trans {x y z : Loans.State} (h : LoPath c x y) (g : LoPath c y z) : LoPath c x z

/-- The lending pallet's terms and everybody's position but the pallet's own are left alone. -/
theorem LoPath.leaves {x y : Loans.State} (p : LoPath c x y) : Loans.LeavesOthers (fun v => v = c.acct) x y := by
  induction p with
  | ledger _ => exact ⟨rfl, fun _ _ _ => rfl, fun _ _ _ => rfl, fun _ _ => rfl⟩
  | call k _ _ hb h =>
    have e := Loans.exec_leavesOthers h hb.1
    exact ⟨e.terms, fun a v hv => e.deps a v (fun hm => hv (hb.2 v hm)), fun a v hv => e.debts a v (fun hm => hv (hb.2 v hm)),
      fun v hv => e.accrued v (fun hm => hv (hb.2 v hm))⟩
  | trans _ _ h1 h2 => exact h1.trans h2

theorem LoPath.refl {x : Loans.State} : LoPath c x x := .ledger (l := x.ledger) Guar.refl

theorem tryCollateral_path {x : Loans.State} : LoPath c x (tryCollateral c x) := by
  unfold tryCollateral
  rcases commit_cases x (Loans.setCollateral c.lo x c.acct c.collateral true) with h | h
  · by_cases hd : (x.dep c.collateral c.acct).coll = true
    · have e : commit x (Loans.setCollateral c.lo x c.acct c.collateral true) = x := by
        generalize commit x (Loans.setCollateral c.lo x c.acct c.collateral true) = x' at h
        simp only [Loans.setCollateral, bind_ok_iff, ensure_ok_iff, exists_const, if_true, Except.ok.injEq] at h
        obtain ⟨_, _, h1, rfl⟩ := h
        obtain ⟨d, hd'⟩ := Option.isSome_iff_exists.1 h1
        have : (some { x.dep c.collateral c.acct with coll := true } : Option Loans.Deposit) =
            x.deposits c.collateral c.acct := by
          rw [hd']
          have e2 : x.dep c.collateral c.acct = d := by simp [Loans.State.dep, hd']
          rw [e2] at hd ⊢
          cases d; simp_all
        unfold Loans.setDep
        rw [this]
        have : upd2 x.deposits c.collateral c.acct (x.deposits c.collateral c.acct) = x.deposits := by
          funext i j; simp only [upd2_apply]; split_ifs with hij
          · rw [hij.1, hij.2]
          · rfl
        rw [this]
      rw [e]; exact .refl
    · refine .call (.collateral c.acct c.collateral true) (by simp [Loans.Call.signers]) trivial
        ⟨rfl, by simp [Loans.Call.about]⟩ ?_
      have h0 := h
      simp only [Loans.setCollateral, bind_ok_iff, ensure_ok_iff, exists_const] at h0
      obtain ⟨mk, hm, h1, _⟩ := h0
      simp only [Loans.exec, Loans.collateralAsset]
      simp only [hm, ok_bind, ensure_of h1, ensure_of hd]
      exact h
  · rw [h.1]; exact .refl

theorem instantUnstake_path {w m : Nat} (h : instantUnstake c s w m = .ok s') (hne : c.acct ≠ c.lo.acct)
    (ha : src c.acct) (hl : src c.lo.acct) (hk : cur c.collateral) :
    Guar src cur s.tok s'.tok ∧ LoPath c s.lo s'.lo ∧ s' = { s with lo := s'.lo } := by
  simp only [instantUnstake, bind_ok_iff, pure_ok_iff] at h
  obtain ⟨_, _, b, _, _, _, k, _, l1, h1, x1, h2, x2, h3, l2, h4, rfl⟩ := h
  have g1 : Guar src cur s.tok l1 := Guar.mint h1 hk
  have g2 : Guar src cur l1 x1.ledger := Loans.mint_guar h2 ha
  have g3 : Guar src cur (tryCollateral c x1).ledger x2.ledger := Loans.borrow_guar h3 hl
  rw [tryCollateral_ledger] at g3
  have g4 : Guar src cur x2.ledger l2 := Guar.transfer h4 ha
  refine ⟨((g1.trans g2).trans g3).trans g4, ?_, rfl⟩
  refine .trans (.ledger (l := l1) (Guar.mint h1 trivial)) ?_
  refine .trans (.call (.mint c.acct c.collateral k) (by simp [Loans.Call.signers]) trivial
        ⟨rfl, by simp [Loans.Call.about]⟩ h2) ?_
  refine .trans tryCollateral_path ?_
  refine .trans (.call (.borrow c.acct c.staking b) (by simp [Loans.Call.signers]) trivial
        ⟨rfl, by simp [Loans.Call.about]⟩ h3) ?_
  exact .ledger (Guar.transfer h4 hne)

theorem claimLoans_path {m : Nat} (h : claimLoans c s m = .ok s') (hm : m ≠ 0) (hne : c.acct ≠ c.lo.acct)
    (ha : src c.acct) (hl : src c.lo.acct) (hk : cur c.collateral) :
    Guar src cur s.tok s'.tok ∧ LoPath c s.lo s'.lo ∧ s' = { s with lo := s'.lo } := by
  simp only [claimLoans, bind_ok_iff, pure_ok_iff] at h
  obtain ⟨x1, h1, d, hd, x2, h2, cf, hcf, k, hk0, ⟨x3, p⟩, h3, l, h4, rfl⟩ := h
  have hk1 : k ≠ 0 := by
    rw [precipCeil_ok_iff] at hk0
    obtain ⟨hcf0, rfl⟩ := hk0
    have h5 : 0 < ceilDiv (m * million) cf := by
      rw [Nat.pos_iff_ne_zero]
      intro e
      have := (ceilDiv_le_iff (Nat.pos_of_ne_zero hcf0)).1 (le_of_eq e)
      have hmm : 0 < m * million := Nat.mul_pos (Nat.pos_of_ne_zero hm) million_pos
      omega
    exact Nat.pos_iff_ne_zero.1 (lt_min maxU128_pos h5)
  have g1 : Guar src cur x1.ledger x2.ledger := Loans.repay_guar h2 ha
  rw [Loans.accrue_ledger h1] at g1
  have g2 : Guar src cur x2.ledger x3.ledger := Loans.doRedeem_guar h3 hl
  have g3 : Guar src cur x3.ledger l := Guar.burn h4 ha hk
  refine ⟨(g1.trans g2).trans g3, ?_, rfl⟩
  have h2' : Loans.exec c.lo s.lo (.repay c.acct c.staking (min d m)) = .ok x2 := by
    simp only [Loans.repay, bind_ok_iff] at h2
    obtain ⟨mk, hmk, y, hy, d', hd', h2⟩ := h2
    rw [Loans.accrue_idem h1] at hy
    cases hy
    have hmk' : Loans.ensureActive s.lo c.staking = .ok mk := by
      unfold Loans.ensureActive at hmk ⊢
      rw [(Loans.accrue_again h1).2.1] at hmk
      exact hmk
    simp only [Loans.exec, Loans.repay, bind_ok_iff]
    exact ⟨mk, hmk', x1, h1, d', hd', h2⟩
  have h3' : Loans.exec c.lo x2 (.redeem c.acct c.collateral k) = .ok x3 := by
    simp only [Loans.exec, Loans.redeem, bind_ok_iff, pure_ok_iff]
    exact ⟨(), ensure_of hk1, (x3, p), h3, rfl⟩
  refine .trans (.call (.repay c.acct c.staking (min d m)) (by simp [Loans.Call.signers]) trivial
        ⟨rfl, by simp [Loans.Call.about]⟩ h2') ?_
  refine .trans (.call (.redeem c.acct c.collateral k) (by simp [Loans.Call.signers]) trivial
        ⟨rfl, by simp [Loans.Call.about]⟩ h3') ?_
  exact .ledger (Guar.burn h4 hne trivial)

/-- The accounts a staking call may take tokens from. -/
abbrev srcOf (c : Cfg) (s : State) (k : Call) (w : Nat) : Prop :=
  k.pays s w ∨ w = c.acct ∨ w = c.xcmAcct ∨ w = c.lo.acct
/-- The assets a staking call may mint or burn. -/
abbrev curOf (c : Cfg) (a : Nat) : Prop := a = c.staking ∨ a = c.liquid ∨ a = c.collateral

/-- A staking call takes tokens only from the pallet's, the XCM helper's and the lending pallet's account, and from
accounts that stake, unstake or have a pending fast-unstake request; it mints and burns only the staking currency, the
liquid currency and the collateral token; it uses the lending pallet only through its calls. -/
theorem exec_guar {k : Call} (h : exec c s k = .ok s') (hne : c.acct ≠ c.lo.acct) (hx : c.xcmAcct ≠ c.lo.acct)
    (hp : ¬ k.pays s c.lo.acct) :
    Guar (srcOf c s k) (curOf c) s.tok s'.tok ∧ LoPath c s.lo s'.lo ∧
    (∀ w, ¬ k.pays s w → (∀ m, k ≠ .cancelUnstake w m) → s.fast w = none → s'.fast w = none) ∧
    s.nextId ≤ s'.nextId ∧ (∀ x ∈ s'.reqs, x ∈ s.reqs ∨ s.nextId ≤ x.1) := by
  have quiet : ∀ {s'}, Quiet (fun w => k.pays s w ∨ w = c.acct ∨ w = c.xcmAcct) (curOf c) s s' →
      Guar (srcOf c s k) (curOf c) s.tok s'.tok ∧ LoPath c s.lo s'.lo ∧
      (∀ w, ¬ k.pays s w → (∀ m, k ≠ .cancelUnstake w m) → s.fast w = none → s'.fast w = none) ∧
      s.nextId ≤ s'.nextId ∧ (∀ x ∈ s'.reqs, x ∈ s.reqs ∨ s.nextId ≤ x.1) := by
    intro s' q
    refine ⟨q.guar.mono (fun w hw => ?_) (fun _ h => h), ?_, fun w _ _ => q.fast w, q.ids, q.reqs⟩
    · rcases hw with h | h | h
      · exact .inl h
      · exact .inr (.inl h)
      · exact .inr (.inr (.inl h))
    · rw [q.lo]
      refine .ledger (q.guar.mono (fun w hw => ?_) (fun _ _ => trivial))
      rintro rfl
      rcases hw with h | h | h
      · exact hp h
      · exact hne h.symm
      · exact hx h.symm
  have hc : Curs c (curOf c) := ⟨.inl rfl, .inr (.inl rfl)⟩
  cases k with
  | stake w m =>
    have q := stake_quiet (src := fun x => (Call.stake w m).pays s x ∨ x = c.acct ∨ x = c.xcmAcct) h (.inl rfl) hc
    exact quiet q
  | unstake w q p =>
    simp only [exec, unstake, bind_ok_iff] at h
    obtain ⟨_, _, t, _, _, _, h⟩ := h
    split_ifs at h with hpool
    · cases h
      refine ⟨Guar.refl, .refl, fun x hx _ e => ?_, le_refl _, fun _ h => .inl h⟩
      have : x ≠ w := fun e' => hx e'
      simpa [requestFast, upd_of_ne _ _ this] using e
    · simp only [unstakeSlow, bind_ok_iff, pure_ok_iff] at h
      obtain ⟨m, _, _, _, _, _, l1, h1, l2, h2, s1, h3, _, _, rfl⟩ := h
      have hw : w ≠ c.lo.acct := fun e => hp (by subst e; rfl)
      have g0 : Guar (srcOf c s (.unstake w q p)) (curOf c) s.tok l2 :=
        (Guar.burn h1 (.inl rfl) hc.liquid).trans (Guar.mint h2 hc.liquid)
      have p0 : LoPath c s.lo { s.lo with ledger := l2 } :=
        .ledger ((Guar.burn h1 hw trivial).trans (Guar.mint h2 trivial))
      unfold viaLoans at h3
      split_ifs at h3
      · obtain ⟨g, pth, e⟩ := instantUnstake_path (src := srcOf c s (.unstake w q p)) (cur := curOf c) h3 hne
          (.inr (.inl rfl)) (.inr (.inr (.inr rfl))) (.inr (.inr rfl))
        refine ⟨g0.trans g, p0.trans pth, fun x _ _ ex => ?_, ?_, fun x hx => .inl ?_⟩
        · show s1.fast x = none
          rw [e]; exact ex
        · show s.nextId ≤ s1.nextId
          rw [e]; exact le_refl _
        · have hx : x ∈ s1.reqs := hx
          rw [e] at hx; exact hx
      · cases h3
        exact ⟨g0, p0, fun x _ _ ex => ex, le_refl _, fun _ h => .inl h⟩
  | cancelUnstake w m =>
    simp only [exec, cancelUnstake, Except.ok.injEq] at h
    subst h
    refine ⟨Guar.refl, .refl, fun x hx hn e => ?_, le_refl _, fun _ h => .inl h⟩
    have : x ≠ w := fun e' => hn m (by rw [e'])
    show upd s.fast w _ x = none
    rw [upd_of_ne _ _ this]; exact e
  | claimFor w =>
    simp only [exec, claimFor, bind_ok_iff, pure_ok_iff, ensure_ok_iff, exists_const] at h
    obtain ⟨_, _, m, _, hm, _, s1, h1, rfl⟩ := h
    unfold payClaim at h1
    split_ifs at h1
    · obtain ⟨g, pth, e⟩ := claimLoans_path (src := srcOf c s (.claimFor w)) (cur := curOf c) h1 hm hne
        (.inr (.inl rfl)) (.inr (.inr (.inr rfl))) (.inr (.inr rfl))
      refine ⟨g, pth, fun x _ _ ex => ?_, ?_, fun x hx => .inl ?_⟩
      · show s1.fast x = none
        rw [e]; exact ex
      · show s.nextId ≤ s1.nextId
        rw [e]
      · have hx : x ∈ s1.reqs := hx
        rw [e] at hx; exact hx
    · simp only [bind_ok_iff, pure_ok_iff] at h1
      obtain ⟨l, hl, rfl⟩ := h1
      exact ⟨Guar.transfer hl (.inr (.inl rfl)), .ledger (Guar.transfer hl hne), fun x _ _ ex => ex, le_refl _,
        fun _ h => .inl h⟩
  | fastMatch ws =>
    have q := fastMatchAll_quiet (src := fun x => (Call.fastMatch ws).pays s x ∨ x = c.acct ∨ x = c.xcmAcct)
      (.inr (.inl rfl)) hc h (fun x hx he => .inl ⟨hx, he⟩)
    exact quiet q
  | bond i m => exact quiet (doBond_quiet h (.inr (.inr rfl)) hc)
  | bondExtra i m => exact quiet (doBondExtra_quiet h (.inr (.inr rfl)) hc)
  | unbond i m => exact quiet (doUnbond_quiet h (.inr (.inr rfl)) hc)
  | rebond i m => exact quiet (doRebond_quiet h (.inr (.inr rfl)) hc)
  | withdraw i => exact quiet (doWithdraw_quiet h (.inr (.inr rfl)) hc)
  | nominate i => exact quiet (doNominate_quiet h (.inr (.inr rfl)) hc)
  | notify q ok => exact quiet (notify_quiet h (.inr (.inl rfl)) hc)
  | setEraStart b =>
    simp only [exec, Except.ok.injEq] at h
    subst h; exact quiet (Quiet.of rfl rfl rfl)
  | forceEra b =>
    simp only [exec, Except.ok.injEq] at h
    subst h; exact quiet (Quiet.of rfl rfl rfl)
  | forceAdvance n =>
    simp only [exec, Except.ok.injEq] at h
    subst h; exact quiet advanceEra_quiet
  | forceMatching => exact quiet (doMatching_quiet h (.inr (.inr rfl)) hc)
  | forceLedger i l =>
    simp only [exec, forceLedger, bind_ok_iff] at h
    obtain ⟨_, _, _, _, h⟩ := h
    exact quiet (updLedger_quiet h)
  | setEra e p =>
    simp only [exec, setEra, bind_ok_iff, pure_ok_iff] at h
    obtain ⟨_, _, rfl⟩ := h
    exact quiet advanceEra_quiet
  | setLedger i l p =>
    simp only [exec, setLedger, bind_ok_iff] at h
    obtain ⟨_, _, _, _, _, _, _, _, _, _, t, ht, h⟩ := h
    exact quiet ((Quiet.tok (Guar.mint ht hc.liquid)).trans (updLedger_quiet h))
  | reduceReserves r m =>
    simp only [exec, reduceReserves, bind_ok_iff, pure_ok_iff] at h
    obtain ⟨_, _, l, hl, rfl⟩ := h
    exact quiet ((Quiet.tok (Guar.transfer hl (.inr (.inl rfl)))).trans (Quiet.of rfl rfl rfl))
  | reduceUReserves r m =>
    simp only [exec, reduceUReserves, bind_ok_iff, pure_ok_iff] at h
    obtain ⟨_, _, l, hl, rfl⟩ := h
    exact quiet ((Quiet.tok (Guar.transfer hl (.inr (.inl rfl)))).trans (Quiet.of rfl rfl rfl))
  | setRf p =>
    simp only [exec, setRf, bind_ok_iff, pure_ok_iff] at h
    obtain ⟨_, _, rfl⟩ := h
    exact quiet (Quiet.of rfl rfl rfl)
  | setUrf p =>
    simp only [exec, setUrf, bind_ok_iff, pure_ok_iff] at h
    obtain ⟨_, _, rfl⟩ := h
    exact quiet (Quiet.of rfl rfl rfl)
  | setCap p =>
    simp only [exec, setCap, bind_ok_iff, pure_ok_iff] at h
    obtain ⟨_, _, rfl⟩ := h
    exact quiet (Quiet.of rfl rfl rfl)
  | setCommission p =>
    simp only [exec, setCommission, bind_ok_iff, pure_ok_iff] at h
    obtain ⟨_, _, rfl⟩ := h
    exact quiet (Quiet.of rfl rfl rfl)
  | onInit =>
    simp only [exec, Except.ok.injEq] at h
    subst h; exact quiet (onInit_quiet (.inr (.inr rfl)) hc)
  | onFinalize =>
    simp only [exec, Except.ok.injEq] at h
    subst h; exact quiet (Quiet.of rfl rfl rfl)

end Verif.Staking
