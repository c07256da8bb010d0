import Verif.Evm.AssetsSpec
import Verif.Evm.Erc20Lemmas

/-!
# Lemmas about the ERC-20 interface of assets
-/

namespace Verif.Evm.Ast

theorem leaves_ge {a : Asset} {src amt : Nat} (h : amt ≤ a.bal src) : amt ≤ leaves a src amt := by
  unfold leaves; split <;> omega

theorem leaves_le {a : Asset} {src amt : Nat} (h : amt ≤ a.bal src) : leaves a src amt ≤ a.bal src := by
  unfold leaves; split <;> omega

theorem leaves_lt {a : Asset} {src amt : Nat} : leaves a src amt ≤ amt + (a.minBal - 1) := by
  unfold leaves; split <;> omega

theorem prepDebit_exact_iff {a : Asset} {src amt d : Nat} (h0 : amt ≠ 0) :
    prepDebit a src amt false = .ok d ↔
      a.status = .live ∧ a.frozen src = false ∧ amt ≤ a.bal src ∧ d = leaves a src amt := by
  unfold prepDebit leaves
  simp only [bind_ok_iff, ensure_ok_iff, exists_const, pure_ok_iff]
  constructor
  · rintro ⟨h1, h2, h3, h4, rfl⟩
    have h4 : amt ≤ a.bal src := by
      rcases h4 with h4 | h4
      · cases h4
      · omega
    rw [Nat.min_eq_right h4]
    exact ⟨h1, h3, h4, rfl⟩
  · rintro ⟨h1, h2, h3, rfl⟩
    rw [Nat.min_eq_right h3]
    exact ⟨h1, by omega, h2, .inr (le_refl _), rfl⟩

theorem prepDebit_best_iff {a : Asset} {src amt d : Nat} (h0 : amt ≠ 0) :
    prepDebit a src amt true = .ok d ↔
      a.status = .live ∧ a.frozen src = false ∧ a.bal src ≠ 0 ∧ d = leaves a src (min (a.bal src) amt) := by
  unfold prepDebit leaves
  simp only [bind_ok_iff, ensure_ok_iff, exists_const, pure_ok_iff]
  constructor
  · rintro ⟨h1, h2, h3, h4, rfl⟩
    exact ⟨h1, h3, h2, rfl⟩
  · rintro ⟨h1, h2, h3, rfl⟩
    exact ⟨h1, h3, h2, .inl trivial, rfl⟩

theorem canIncrease_ok_iff {a : Asset} {who amt : Nat} {u : Unit} :
    canIncrease a who amt = .ok u ↔ a.bal who + amt ≤ maxU128 ∧ (a.bal who ≠ 0 ∨ a.minBal ≤ amt) := by
  unfold canIncrease
  simp only [bind_ok_iff, ensure_ok_iff, exists_const]

theorem asset_transfer_iff (a : Asset) (src dst amt : Nat) :
    (∃ a', a.transfer src dst amt = .ok a') ↔ CanSend a src dst amt := by
  unfold Asset.transfer CanSend
  by_cases h0 : amt = 0
  · rw [if_pos h0]
    exact ⟨fun _ => .inl h0, fun _ => ⟨_, rfl⟩⟩
  · rw [if_neg h0]
    simp only [bind_ok_iff, prepDebit_exact_iff h0, canIncrease_ok_iff, exists_const]
    constructor
    · rintro ⟨a', d, ⟨h1, h2, h3, rfl⟩, ⟨h4, h5⟩, -⟩
      exact .inr ⟨h1, h2, h3, h4, h5⟩
    · rintro (h | ⟨h1, h2, h3, h4, h5⟩)
      · exact (h0 h).elim
      · by_cases he : src = dst
        · exact ⟨a, _, ⟨h1, h2, h3, rfl⟩, ⟨h4, h5⟩, by rw [if_pos he]; rfl⟩
        · exact ⟨_, _, ⟨h1, h2, h3, rfl⟩, ⟨h4, h5⟩, by rw [if_neg he]; rfl⟩

theorem asset_transfer_sent {a a' : Asset} {src dst amt : Nat} (h : a.transfer src dst amt = .ok a') :
    Sent a a' src dst amt ∧ CanSend a src dst amt := by
  refine ⟨?_, (asset_transfer_iff a src dst amt).1 ⟨_, h⟩⟩
  unfold Asset.transfer at h
  by_cases h0 : amt = 0
  · rw [if_pos h0] at h
    injection h with h
    subst h
    exact ⟨fun h => (h h0).elim, fun _ => rfl, rfl⟩
  · rw [if_neg h0] at h
    simp only [bind_ok_iff, prepDebit_exact_iff h0, canIncrease_ok_iff, exists_const] at h
    obtain ⟨d, ⟨h1, h2, h3, rfl⟩, -, h4⟩ := h
    by_cases he : src = dst
    · rw [if_pos he, pure_ok_iff] at h4
      subst h4
      exact ⟨fun _ h => (h he).elim, fun _ => rfl, rfl⟩
    · rw [if_neg he, pure_ok_iff] at h4
      subst h4
      refine ⟨fun _ _ x => ?_, fun h => ?_, rfl⟩
      · have hl := leaves_le h3
        dsimp only
        by_cases e1 : x = dst
        · subst e1
          rw [upd_same, if_neg fun e => he e.symm, if_pos rfl]; omega
        · rw [upd_of_ne _ _ e1, if_neg e1]
          by_cases e2 : x = src
          · subst e2
            rw [upd_same, if_pos rfl]; omega
          · rw [upd_of_ne _ _ e2, if_neg e2]
      · rcases h with h | h
        · exact (h0 h).elim
        · exact (he h).elim

theorem getLive_ok_iff {s : State} {id : Nat} {a : Asset} :
    getLive s id = .ok a ↔ s.assets id = some a ∧ a.status = .live := by
  unfold getLive
  simp only [bind_ok_iff, okOr_ok_iff, ensure_ok_iff, exists_const, pure_ok_iff]
  constructor
  · rintro ⟨x, h1, h2, rfl⟩; exact ⟨h1, h2⟩
  · rintro ⟨h1, h2⟩; exact ⟨a, h1, h2, rfl⟩

theorem setAsset_only (s : State) (id : Nat) (a : Asset) : OnlyAsset s (s.setAsset id a) id a :=
  ⟨rfl, rfl, rfl, upd_same _ _ _, fun _ h => upd_of_ne _ _ h⟩

theorem setAsset_self {s : State} {id : Nat} {a : Asset} (h : s.assets id = some a) : s.setAsset id a = s := by
  unfold State.setAsset
  have : upd s.assets id (some a) = s.assets := by
    funext j
    by_cases e : j = id
    · rw [e, upd_same, h]
    · rw [upd_of_ne _ _ e]
  rw [this]

/-- Transfers of an existing asset. -/
theorem transferAsset_ok_iff {s s' : State} {id src dst amt : Nat} {a : Asset} (ha : s.assets id = some a) :
    transferAsset s id src dst amt = .ok s' ↔ ∃ a', a.transfer src dst amt = .ok a' ∧ s' = s.setAsset id a' := by
  unfold transferAsset
  by_cases h0 : amt = 0
  · rw [if_pos h0]
    have e : a.transfer src dst amt = .ok a := by unfold Asset.transfer; rw [if_pos h0]
    constructor
    · intro h
      injection h with h
      exact ⟨a, e, by rw [setAsset_self ha, h]⟩
    · rintro ⟨a', h1, rfl⟩
      rw [e] at h1
      injection h1 with h1
      rw [← h1, setAsset_self ha]
  · rw [if_neg h0]
    simp only [bind_ok_iff, okOr_ok_iff, pure_ok_iff]
    constructor
    · rintro ⟨x, h1, a', h2, rfl⟩
      rw [ha] at h1
      injection h1 with h1
      exact ⟨a', by rw [h1]; exact h2, rfl⟩
    · rintro ⟨a', h1, rfl⟩
      exact ⟨a, ha, a', h1, rfl⟩

theorem setApproval_same (s : State) (id o d : Nat) (v : Option Approval) :
    (s.setApproval id o d v).approvals id o d = v := by
  unfold State.setApproval
  dsimp only
  rw [upd_same, upd2_same]

theorem setApproval_of_ne (s : State) (id o d : Nat) (v : Option Approval) {j x y : Nat}
    (h : ¬ (j = id ∧ x = o ∧ y = d)) : (s.setApproval id o d v).approvals j x y = s.approvals j x y := by
  unfold State.setApproval
  dsimp only
  by_cases e : j = id
  · rw [e, upd_same, upd2_apply, if_neg fun e2 => h ⟨e, e2⟩]
  · rw [upd_of_ne _ _ e]

theorem reserve_ok_iff {n n' : Native} {who amt : Nat} : n.reserve who amt = .ok n' ↔
    (amt = 0 ∧ n' = n) ∨ (amt ≠ 0 ∧ amt + n.frozen who ≤ n.free who ∧ n.resv who + amt ≤ maxU128 ∧
      n' = { n with free := upd n.free who (n.free who - amt), resv := upd n.resv who (n.resv who + amt) }) := by
  unfold Native.reserve
  by_cases h0 : amt = 0
  · rw [if_pos h0]
    constructor
    · intro h; injection h with h; exact .inl ⟨h0, h.symm⟩
    · rintro (⟨-, rfl⟩ | ⟨h, -⟩)
      · rfl
      · exact (h h0).elim
  · rw [if_neg h0]
    simp only [bind_ok_iff, ensure_ok_iff, exists_const, pure_ok_iff]
    constructor
    · rintro ⟨h1, h2, h3, rfl⟩
      exact .inr ⟨h0, by omega, h2, rfl⟩
    · rintro (⟨h, -⟩ | ⟨-, h1, h2, rfl⟩)
      · exact (h0 h).elim
      · exact ⟨by omega, h2, by omega, rfl⟩

/-- What reserving does to balances. -/
theorem reserve_what {n n' : Native} {who amt : Nat} (h : n.reserve who amt = .ok n') :
    (∀ x, n'.free x + (if x = who then amt else 0) = n.free x) ∧
    (∀ x, n'.resv x = n.resv x + (if x = who then amt else 0)) ∧ n'.iss = n.iss ∧ n'.frozen = n.frozen ∧
    n'.pinned = n.pinned := by
  rcases reserve_ok_iff.1 h with ⟨rfl, rfl⟩ | ⟨_, h1, h2, rfl⟩
  · refine ⟨fun x => ?_, fun x => ?_, rfl, rfl, rfl⟩ <;> split <;> omega
  · refine ⟨fun x => ?_, fun x => ?_, rfl, rfl, rfl⟩
    · dsimp only
      by_cases e : x = who
      · subst e; rw [upd_same, if_pos rfl]; omega
      · rw [upd_of_ne _ _ e, if_neg e]; omega
    · dsimp only
      by_cases e : x = who
      · subst e; rw [upd_same, if_pos rfl]
      · rw [upd_of_ne _ _ e, if_neg e]; omega

theorem unreserve_what (n : Native) (who amt : Nat) :
    (∀ x, (n.unreserve who amt).free x = n.free x + (if x = who then min (n.resv who) amt else 0)) ∧
    (∀ x, (n.unreserve who amt).resv x + (if x = who then min (n.resv who) amt else 0) = n.resv x) ∧
    (n.unreserve who amt).iss = n.iss ∧ (n.unreserve who amt).frozen = n.frozen ∧
    (n.unreserve who amt).pinned = n.pinned := by
  unfold Native.unreserve
  refine ⟨fun x => ?_, fun x => ?_, rfl, rfl, rfl⟩
  · dsimp only
    by_cases e : x = who
    · subst e; rw [upd_same, if_pos rfl]
    · rw [upd_of_ne _ _ e, if_neg e]; omega
  · dsimp only
    by_cases e : x = who
    · subst e; rw [upd_same, if_pos rfl]; omega
    · rw [upd_of_ne _ _ e, if_neg e]; omega

theorem allowanceOf_some {s : State} {id o d : Nat} {p : Approval} (h : s.approvals id o d = some p) :
    allowanceOf s id o d = p.amount := by unfold allowanceOf; rw [h]; rfl

theorem depositOf_some {s : State} {id o d : Nat} {p : Approval} (h : s.approvals id o d = some p) :
    depositOf s id o d = p.deposit := by unfold depositOf; rw [h]; rfl

theorem getD_eq (s : State) (id o d : Nat) :
    (s.approvals id o d).getD ⟨0, 0⟩ = ⟨allowanceOf s id o d, depositOf s id o d⟩ := by
  unfold allowanceOf depositOf
  cases s.approvals id o d with
  | none => rfl
  | some p => rfl

theorem exists_of_allowance {s : State} {id o d : Nat} (h : allowanceOf s id o d ≠ 0) :
    ∃ p, s.approvals id o d = some p := by
  unfold allowanceOf at h
  cases e : s.approvals id o d with
  | none => rw [e] at h; exact (h rfl).elim
  | some p => exact ⟨p, rfl⟩

theorem saturate_eq (v : Nat) : saturate v = min v maxU128 := by
  unfold saturate
  split <;> omega

/-- The state after the first half of `approve_inner`. -/
theorem cancelOld_ok_iff {rt : Rt} {s s1 : State} {id o d : Nat} {a : Asset} (ha : s.assets id = some a) :
    cancelOld rt s id o d = .ok s1 ↔
      (allowanceOf s id o d = 0 ∧ s1 = s) ∨ ((allowanceOf s id o d ≠ 0 ∧ rt.filter .cancelApproval = true) ∧ a.status = .live ∧
        s1 = { s with cur := s.cur.unreserve o (depositOf s id o d) }.setApproval id o d none) := by
  unfold cancelOld cancelApproval
  by_cases h0 : allowanceOf s id o d = 0
  · rw [if_neg (not_not.2 h0)]
    constructor
    · intro h; injection h with h; exact .inl ⟨h0, h.symm⟩
    · rintro (⟨-, rfl⟩ | ⟨⟨h, -⟩, -⟩)
      · rfl
      · exact (h h0).elim
  · rw [if_pos h0]
    obtain ⟨p, hp⟩ := exists_of_allowance h0
    simp only [dispatch_ok_iff, bind_ok_iff, getLive_ok_iff, okOr_ok_iff, pure_ok_iff, hp, ha, depositOf_some hp]
    constructor
    · rintro ⟨hf, x, ⟨h1, h2⟩, q, h3, rfl⟩
      injection h1 with h1
      injection h3 with h3
      exact .inr ⟨⟨h0, hf⟩, by rw [h1]; exact h2, by rw [h3]⟩
    · rintro (⟨h, -⟩ | ⟨⟨-, hf⟩, h1, rfl⟩)
      · exact (h0 h).elim
      · exact ⟨hf, a, ⟨rfl, h1⟩, p, rfl, rfl⟩

theorem approveTransfer_ok_iff {rt : Rt} {s s' : State} {id o d v : Nat} {a : Asset} (ha : s.assets id = some a) :
    approveTransfer rt s id o d v = .ok s' ↔ a.status = .live ∧
      ∃ n, s.cur.reserve o (rt.ed - depositOf s id o d) = .ok n ∧
        s' = { s with cur := n }.setApproval id o d
          (some ⟨min (allowanceOf s id o d + v) maxU128, max (depositOf s id o d) rt.ed⟩) := by
  unfold approveTransfer
  rw [getD_eq]
  simp only [bind_ok_iff, getLive_ok_iff, pure_ok_iff, ha]
  constructor
  · rintro ⟨x, ⟨h1, h2⟩, n, h3, rfl⟩
    injection h1 with h1
    exact ⟨by rw [h1]; exact h2, n, h3, rfl⟩
  · rintro ⟨h1, n, h2, rfl⟩
    exact ⟨a, ⟨rfl, h1⟩, n, h2, rfl⟩

theorem allowanceOf_none {s : State} {id o d : Nat} (h : s.approvals id o d = none) : allowanceOf s id o d = 0 := by
  unfold allowanceOf; rw [h]; rfl

theorem depositOf_none {s : State} {id o d : Nat} (h : s.approvals id o d = none) : depositOf s id o d = 0 := by
  unfold depositOf; rw [h]; rfl

/-- When an allowance can be set. -/
theorem approveInner_iff {rt : Rt} {s : State} {id o d v : Nat} {a : Asset} (ha : s.assets id = some a) :
    (∃ s', approveInner rt s id o d v = .ok s') ↔ a.status = .live ∧ CanDeposit rt s id o d ∧ MayApprove rt s id o d := by
  unfold approveInner CanDeposit needed released MayApprove
  simp only [bind_ok_iff, dispatch_ok_iff, cancelOld_ok_iff ha]
  by_cases h0 : allowanceOf s id o d = 0
  · rw [if_neg (not_not.2 h0), if_neg (not_not.2 h0)]
    constructor
    · rintro ⟨s', s1, ⟨-, rfl⟩ | ⟨⟨h, -⟩, -⟩, hf, h1⟩
      · obtain ⟨h2, n, h3, -⟩ := (approveTransfer_ok_iff ha).1 h1
        refine ⟨h2, ?_, hf, fun h => absurd h0 h⟩
        rcases reserve_ok_iff.1 h3 with ⟨h, -⟩ | ⟨h, h4, h5, -⟩
        · exact .inl h
        · exact .inr ⟨by omega, by omega⟩
      · exact (h h0).elim
    · rintro ⟨h1, h2, hf, -⟩
      have : ∃ n, s.cur.reserve o (rt.ed - depositOf s id o d) = .ok n := by
        rcases h2 with h2 | ⟨h2, h4⟩
        · exact ⟨_, reserve_ok_iff.2 (.inl ⟨h2, rfl⟩)⟩
        · by_cases hz : rt.ed - depositOf s id o d = 0
          · exact ⟨_, reserve_ok_iff.2 (.inl ⟨hz, rfl⟩)⟩
          · exact ⟨_, reserve_ok_iff.2 (.inr ⟨hz, by omega, by omega, rfl⟩)⟩
      obtain ⟨n, hn⟩ := this
      exact ⟨_, s, .inl ⟨h0, rfl⟩, hf, (approveTransfer_ok_iff ha).2 ⟨h1, n, hn, rfl⟩⟩
  · rw [if_pos h0, if_pos h0]
    obtain ⟨h1f, h1r, -, h1z, -⟩ := unreserve_what s.cur o (depositOf s id o d)
    have hf := h1f o
    have hr := h1r o
    rw [if_pos rfl] at hf hr
    have hz : (s.cur.unreserve o (depositOf s id o d)).frozen o = s.cur.frozen o := by rw [h1z]
    have hno : ({ s with cur := s.cur.unreserve o (depositOf s id o d) }.setApproval id o d none).approvals id o d = none :=
      setApproval_same _ _ _ _ _
    have hdep := depositOf_none hno
    have ha1 : ({ s with cur := s.cur.unreserve o (depositOf s id o d) }.setApproval id o d none).assets id = some a := ha
    constructor
    · rintro ⟨s', s1, ⟨h, -⟩ | ⟨⟨-, hg⟩, hl, rfl⟩, hf, h1⟩
      · exact (h0 h).elim
      · obtain ⟨h2, n, h3, -⟩ := (approveTransfer_ok_iff ha1).1 h1
        rw [hdep] at h3
        refine ⟨h2, ?_, hf, fun _ => hg⟩
        rcases reserve_ok_iff.1 h3 with ⟨h, -⟩ | ⟨h, h4, h5, -⟩
        · exact .inl (by omega)
        · have h4' : rt.ed - 0 + (s.cur.unreserve o (depositOf s id o d)).frozen o ≤
            (s.cur.unreserve o (depositOf s id o d)).free o := h4
          have h5' : (s.cur.unreserve o (depositOf s id o d)).resv o + (rt.ed - 0) ≤ maxU128 := h5
          exact .inr ⟨by omega, by omega⟩
    · rintro ⟨h1, h2, hf, hg⟩
      have : ∃ n, (s.cur.unreserve o (depositOf s id o d)).reserve o (rt.ed - 0) = .ok n := by
        by_cases hz0 : rt.ed - 0 = 0
        · exact ⟨_, reserve_ok_iff.2 (.inl ⟨hz0, rfl⟩)⟩
        · rcases h2 with h2 | ⟨h2, h4⟩
          · exact (hz0 (by omega)).elim
          · exact ⟨_, reserve_ok_iff.2 (.inr ⟨hz0, by omega, by omega, rfl⟩)⟩
      obtain ⟨n, hn⟩ := this
      refine ⟨_, _, .inr ⟨⟨h0, hg h0⟩, h1, rfl⟩, hf, (approveTransfer_ok_iff ha1).2 ⟨h1, n, ?_, rfl⟩⟩
      rw [hdep]
      exact hn

/-- What setting an allowance does. -/
theorem approveInner_what {rt : Rt} {s s' : State} {id o d v : Nat} {a : Asset} (ha : s.assets id = some a)
    (h : approveInner rt s id o d v = .ok s') : Approved rt s s' id o d v := by
  unfold approveInner at h
  simp only [bind_ok_iff, dispatch_ok_iff, cancelOld_ok_iff ha] at h
  obtain ⟨s1, h1, -, h2⟩ := h
  rw [saturate_eq] at h2
  rcases h1 with ⟨h0, rfl⟩ | ⟨⟨h0, -⟩, hl, rfl⟩
  · obtain ⟨hl, n, hn, rfl⟩ := (approveTransfer_ok_iff ha).1 h2
    obtain ⟨r1, r2, r3, r4, r5⟩ := reserve_what hn
    have e := setApproval_same { s1 with cur := n } id o d
      (some ⟨min (allowanceOf s1 id o d + min v maxU128) maxU128, max (depositOf s1 id o d) rt.ed⟩)
    refine ⟨?_, ?_, fun j x y hne => setApproval_of_ne _ _ _ _ _ hne, fun x => ?_, fun x => ?_, r3, r4, r5, rfl, rfl⟩
    · rw [allowanceOf_some e, h0]
      dsimp only
      omega
    · rw [depositOf_some e, if_neg (not_not.2 h0)]
    · show n.free x + _ = _
      have := r1 x
      unfold needed released
      rw [if_neg (not_not.2 h0), if_neg (not_not.2 h0)]
      split at this <;> rename_i hx
      · rw [if_pos hx, if_pos hx]; omega
      · rw [if_neg hx, if_neg hx]; omega
    · show n.resv x + _ = _
      have := r2 x
      unfold needed released
      rw [if_neg (not_not.2 h0), if_neg (not_not.2 h0)]
      split at this <;> rename_i hx
      · rw [if_pos hx, if_pos hx]; omega
      · rw [if_neg hx, if_neg hx]; omega
  · have ha1 : ({ s with cur := s.cur.unreserve o (depositOf s id o d) }.setApproval id o d none).assets id = some a := ha
    have hno : ({ s with cur := s.cur.unreserve o (depositOf s id o d) }.setApproval id o d none).approvals id o d = none :=
      setApproval_same _ _ _ _ _
    obtain ⟨-, n, hn, rfl⟩ := (approveTransfer_ok_iff ha1).1 h2
    rw [depositOf_none hno, Nat.sub_zero] at hn
    rw [depositOf_none hno, allowanceOf_none hno]
    obtain ⟨r1, r2, r3, r4, r5⟩ := reserve_what hn
    obtain ⟨u1, u2, u3, u4, u5⟩ := unreserve_what s.cur o (depositOf s id o d)
    generalize hs1 : ({ s with cur := s.cur.unreserve o (depositOf s id o d) }.setApproval id o d none) = s1
    have hc1 : s1.cur = s.cur.unreserve o (depositOf s id o d) := by rw [← hs1]; rfl
    have e := setApproval_same { s1 with cur := n } id o d (some ⟨min (0 + min v maxU128) maxU128, max 0 rt.ed⟩)
    rw [hs1, hc1] at r1 r2
    rw [hs1, hc1] at r3 r4 r5
    refine ⟨?_, ?_, fun j x y hne => ?_, fun x => ?_, fun x => ?_, r3.trans u3, r4.trans u4, r5.trans u5, ?_, ?_⟩
    · rw [allowanceOf_some e]
      dsimp only
      omega
    · rw [depositOf_some e, if_pos h0]
      dsimp only
      omega
    · rw [setApproval_of_ne _ _ _ _ _ hne]
      show s1.approvals j x y = _
      rw [← hs1, setApproval_of_ne _ _ _ _ _ hne]
    · show n.free x + _ = _
      have h1 := r1 x
      have h2 := u1 x
      unfold needed released
      rw [if_pos h0, if_pos h0]
      by_cases hx : x = o
      · rw [if_pos hx] at h1 h2 ⊢; rw [if_pos hx]; omega
      · rw [if_neg hx] at h1 h2 ⊢; rw [if_neg hx]; omega
    · show n.resv x + _ = _
      have h1 := r2 x
      have h2 := u2 x
      unfold needed released
      rw [if_pos h0, if_pos h0]
      by_cases hx : x = o
      · rw [if_pos hx] at h1 h2 ⊢; rw [if_pos hx]; omega
      · rw [if_neg hx] at h1 h2 ⊢; rw [if_neg hx]; omega
    · show s1.assets = _
      rw [← hs1]; rfl
    · show s1.nonces = _
      rw [← hs1]; rfl

end Verif.Evm.Ast
