import Verif.System.Spec
import Verif.Staking.Inv
import Verif.Crowdloans.Calls3

/-! # Every history of the system is a history of each pallet -/

namespace Verif.System
open Verif

/-- A ledger change that a pallet outside `P` can live with. -/
structure Foreign (c : Cfg) (D : Nat → Prop) (P : Pallet → Prop) (l l' : Ledger) : Prop where
  wf : l'.WF
  bal : ∀ q, ¬ P q → ∀ w, keeps c q w → ∀ a, l.bal a w ≤ l'.bal a w
  liquid : ¬ P .staking → l'.iss c.stk.liquid = l.iss c.stk.liquid
  deriv : ¬ P .crowdloans → ∀ T, D T → l'.iss T = l.iss T

variable {c : Cfg} {D : Nat → Prop} {P : Pallet → Prop} {s s' : State} {l l' : Ledger}

theorem Guar.foreign {src cur : Nat → Prop} (hc : c.OK D) (g : Guar src cur l l') (hw : l.WF)
    (hs : ∀ w, src w → (∃ p, P p ∧ spends c p w) ∨ ¬ Vaulted c w)
    (hl : ¬ P .staking → ¬ cur c.stk.liquid) (hd : ¬ P .crowdloans → ∀ T, D T → ¬ cur T) :
    Foreign c D P l l' where
  wf := g.wf hw
  bal q hq w hk a := by
    refine g.bal a w (fun h => ?_)
    rcases hs w h with ⟨p, hp, h1⟩ | h1
    · exact hq (hc.apart p q w h1 hk ▸ hp)
    · exact h1 ⟨q, hk⟩
  liquid h := g.iss _ (hl h)
  deriv h T hT := g.iss _ (hd h T hT)

/-- Everything the induction needs. -/
structure Inv (c : Cfg) (D : Nat → Prop) (s : State) : Prop where
  wf : s.ledger.WF
  amm : Amm.Reach c.amm s.ammV
  stb : Stable.Reach c.stb s.stbV
  farm : Farming.Reach c.farm s.farmV
  lo : Loans.Reach c.lo s.loV
  str : Streaming.Reach c.str s.strV
  stk : Staking.Reach c.stk s.stkV
  cl : Crowdloans.Reach c.cl D s.clV
  br : Bridge.Reach c.br s.brV
  lp : ∀ a, Amm.IsLp s.amm a → ¬ Issued c D a
  slp : ∀ a, Stable.IsLp s.stb a → ¬ Issued c D a
  ext : ∀ a, Bridge.IsExternal s.br a → ¬ Issued c D a
  ct : ∀ a, Crowdloans.IsCtoken s.cl a → D a
  fast : ∀ w, Vaulted c w → s.stk.fast w = none
  apart : ∀ x ∈ s.stk.reqs, s.cl.requests x.1 = none

theorem env_amm (f : Foreign c D P s.ledger l') (hp : ¬ P .amm) (h : Amm.Reach c.amm s.ammV) :
    Amm.Reach c.amm { s.amm with ledger := l' } :=
  .step h (.env ⟨rfl, rfl, rfl, f.wf, fun x => f.bal _ hp _ (.inl rfl) x, fun x => f.bal _ hp _ (.inr rfl) x, le_refl _⟩)

theorem env_stb (f : Foreign c D P s.ledger l') (hp : ¬ P .stable) (h : Stable.Reach c.stb s.stbV) :
    Stable.Reach c.stb { s.stb with ledger := l' } :=
  .step h (.env ⟨rfl, f.wf, fun x => f.bal _ hp _ (.inl rfl) x, fun x => f.bal _ hp _ (.inr rfl) x, le_refl _⟩)

theorem env_farm (f : Foreign c D P s.ledger l') (hp : ¬ P .farming) (h : Farming.Reach c.farm s.farmV) :
    Farming.Reach c.farm { s.farm with ledger := l' } :=
  .step h (.env ⟨rfl, rfl, rfl, le_refl _, f.wf, fun x => f.bal _ hp _ ⟨x, rfl⟩ x⟩)

theorem env_lo (f : Foreign c D P s.ledger l') (hp : ¬ P .loans) (h : Loans.Reach c.lo s.loV) :
    Loans.Reach c.lo { s.lo with ledger := l' } :=
  .step h (.env ⟨rfl, f.wf, fun x => f.bal _ hp _ rfl x, le_refl _, le_refl _⟩)

theorem env_str (f : Foreign c D P s.ledger l') (hp : ¬ P .streaming) (h : Streaming.Reach c.str s.strV) :
    Streaming.Reach c.str { s.str with ledger := l' } :=
  .step h (.env ⟨rfl, rfl, rfl, rfl, rfl, le_refl _, f.wf, fun x => f.bal _ hp _ rfl x⟩)

theorem env_stk {x : Loans.State} {q : Nat} (f : Foreign c D P s.ledger x.ledger) (hp : ¬ P .staking)
    (hc : c.OK D) (hq : s.query ≤ q) (h : Staking.Reach c.stk s.stkV) :
    Staking.Reach c.stk { s.stk with lo := x, nextId := q } :=
  .step h (.env ⟨rfl, f.wf, f.bal _ hp _ rfl _, f.bal _ hp _ rfl _, f.liquid hp, hq,
    (Staking.ReachP.inv hc.stk h).relay⟩)

theorem env_cl {x : Streaming.State} {q : Nat} (f : Foreign c D P s.ledger x.ledger) (hp : ¬ P .crowdloans)
    (hq : s.query ≤ q) (h : Crowdloans.Reach c.cl D s.clV) :
    Crowdloans.Reach c.cl D { s.cl with str := x, nextQuery := q } :=
  .env h ⟨rfl, f.wf, f.bal _ hp _ rfl _, f.deriv hp, hq⟩

theorem env_br (f : Foreign c D P s.ledger l') (h : Bridge.Reach c.br s.brV) :
    Bridge.Reach c.br { s.br with ledger := l' } :=
  .step h (.env ⟨rfl, f.wf⟩)

theorem lo_path (hc : c.OK D) {x x' : Loans.State} (p : Staking.LoPath c.stk x x') (hw : x.ledger.WF)
    (h : Loans.Reach c.lo x) : x'.ledger.WF ∧ Loans.Reach c.lo x' := by
  induction p with
  | ledger g =>
    exact ⟨g.wf hw, .step h (.env ⟨rfl, g.wf hw, fun a => g.bal a _ (fun e => e rfl), le_refl _, le_refl _⟩)⟩
  | call k hk hwt _ he =>
    refine ⟨(Loans.exec_guar he).wf hw, .step h (.call k hwt (fun hm => ?_) trivial he)⟩
    exact hc.stk.loans (hk _ hm).symm
  | trans _ _ ih1 ih2 =>
    obtain ⟨h1, h2⟩ := ih1 hw h
    exact ih2 h1 h2

theorem str_step (hc : c.OK D) {src cur : Nat → Prop} {x x' : Crowdloans.State} (hs : ¬ src c.str.acct)
    (p : Crowdloans.StrStep c.cl src cur x x') (hw : x.tok.WF)
    (h : Streaming.Reach c.str x.str) : Streaming.Reach c.str x'.str := by
  rcases p with ⟨g, e⟩ | ⟨l, who, m, a, b, g, he⟩
  · rw [e]
    exact .step h (.env ⟨rfl, rfl, rfl, rfl, rfl, le_refl _, g.wf hw, fun a => g.bal a _ hs⟩)
  · refine .step (.step h (.env (s' := { x.str with ledger := l })
      ⟨rfl, rfl, rfl, rfl, rfl, le_refl _, g.wf hw, fun a => g.bal a _ hs⟩)) (.call _ ?_ he)
    show c.cl.acct ≠ c.str.acct
    intro e
    have := hc.apart .crowdloans .streaming c.cl.acct (.inl rfl) e
    cases this

/-! ### Genesis -/

theorem Genesis.inv (g : Genesis c D s) : Inv c D s where
  wf := g.wf
  amm := .init _ g.amm g.wf
  stb := .init _ g.stb g.wf
  farm := by rw [g.farm]; exact .init _ _ g.wf
  lo := by rw [g.lo]; exact .init _ _ _ _ g.wf
  str := by rw [g.str]; exact .init _ _ _ g.wf
  stk := .init g.stk
  cl := .init g.cl
  br := by rw [g.br]; exact .init _ _ _ g.wf
  lp a h := by obtain ⟨k, p, hk, _⟩ := h; rw [g.amm k] at hk; cases hk
  slp a h := by obtain ⟨k, p, hk, _⟩ := h; rw [g.stb k] at hk; cases hk
  ext a h := by
    obtain ⟨t, ht, _⟩ := h
    have : s.brV.tokens a = none := by rw [g.br]
    rw [show s.br.tokens a = none from this] at ht; cases ht
  ct a h := by
    obtain ⟨l, hl⟩ := h
    rw [show s.cl.ctokenOf l = none from g.cl.ctokens l] at hl; cases hl
  fast w _ := g.stk.fast w
  apart x hx := by rw [show s.stk.reqs = [] from g.stk.reqs] at hx; cases hx

/-! ### Calls -/

theorem not_vaulted_ne {w x : Nat} {p : Pallet} (h : ¬ Vaulted c w) (hk : keeps c p x) : w ≠ x :=
  fun e => h ⟨p, e ▸ hk⟩

theorem Inv.amm_call (hc : c.OK D) (h : Inv c D s) {k : Amm.Call} (hk : (Call.amm k).OK c D s)
    {x : Amm.State} (he : Amm.exec c.amm s.ammV k = .ok x) : Inv c D (s.putAmm x) := by
  obtain ⟨g, hlp⟩ := Amm.exec_guar he
  have ho : ∀ w ∈ k.payers, ¬ Vaulted c w := hk.actors
  have hi : ∀ a, Amm.IsLp s.amm a ∨ a ∈ k.newLp → ¬ Issued c D a := fun a ha =>
    ha.elim (h.lp a) (hk.lp k rfl a)
  have f : Foreign c D (fun p => p = .amm) s.ledger x.ledger := g.foreign hc h.wf
    (fun w hw => hw.elim (fun h => .inr (ho w h)) (fun h => .inl ⟨.amm, rfl, h⟩))
    (fun _ ha => hi _ ha (.inl rfl)) (fun _ T hT ha => hi _ ha (.inr hT))
  exact {
    wf := f.wf
    amm := .step h.amm (.call k (by
      have e1 : ∀ w, ¬ Vaulted c w → w ≠ c.amm.acct ∧ w ≠ c.amm.lock := fun w hw =>
        ⟨not_vaulted_ne (p := .amm) hw (.inl rfl), not_vaulted_ne (p := .amm) hw (.inr rfl)⟩
      cases k <;> first | exact trivial | exact e1 _ (ho _ (by simp [Amm.Call.payers]))) he)
    stb := env_stb (s := s) f (by simp) h.stb
    farm := env_farm (s := s) f (by simp) h.farm
    lo := env_lo (s := s) f (by simp) h.lo
    str := env_str (s := s) f (by simp) h.str
    stk := env_stk (s := s) (x := { s.lo with ledger := x.ledger }) f (by simp) hc (le_refl _) h.stk
    cl := env_cl (s := s) (x := { s.str with ledger := x.ledger }) f (by simp) (le_refl _) h.cl
    br := env_br (s := s) f h.br
    lp := fun a ha => hi a (hlp a ha)
    slp := h.slp
    ext := h.ext
    ct := h.ct
    fast := h.fast
    apart := h.apart }

theorem Inv.stable_call (hc : c.OK D) (h : Inv c D s) {k : Stable.Call} (hk : (Call.stable k).OK c D s)
    {x : Stable.State} (he : Stable.exec c.stb s.stbV k = .ok x) : Inv c D (s.putStb x) := by
  obtain ⟨g, hlp⟩ := Stable.exec_guar he
  have ho : ∀ w ∈ k.payers, ¬ Vaulted c w := hk.actors
  have hi : ∀ a, Stable.IsLp s.stb a ∨ a ∈ k.newLp → ¬ Issued c D a := fun a ha =>
    ha.elim (h.slp a) (hk.slp k rfl a)
  have f : Foreign c D (fun p => p = .stable) s.ledger x.ledger := g.foreign hc h.wf
    (fun w hw => hw.elim (fun h => .inr (ho w h)) (fun h => .inl ⟨.stable, rfl, h⟩))
    (fun _ ha => hi _ ha (.inl rfl)) (fun _ T hT ha => hi _ ha (.inr hT))
  exact {
    wf := f.wf
    amm := env_amm (s := s) f (by simp) h.amm
    stb := .step h.stb (.call k (by
      have e1 : ∀ w, ¬ Vaulted c w → w ≠ c.stb.acct ∧ w ≠ c.stb.lock := fun w hw =>
        ⟨not_vaulted_ne (p := .stable) hw (.inl rfl), not_vaulted_ne (p := .stable) hw (.inr rfl)⟩
      cases k <;> exact e1 _ (ho _ (by simp [Stable.Call.payers]))) he)
    farm := env_farm (s := s) f (by simp) h.farm
    lo := env_lo (s := s) f (by simp) h.lo
    str := env_str (s := s) f (by simp) h.str
    stk := env_stk (s := s) (x := { s.lo with ledger := x.ledger }) f (by simp) hc (le_refl _) h.stk
    cl := env_cl (s := s) (x := { s.str with ledger := x.ledger }) f (by simp) (le_refl _) h.cl
    br := env_br (s := s) f h.br
    lp := h.lp
    slp := fun a ha => hi a (hlp a ha)
    ext := h.ext
    ct := h.ct
    fast := h.fast
    apart := h.apart }

theorem Inv.farming_call (hc : c.OK D) (h : Inv c D s) {k : Farming.Call} (hk : (Call.farming k).OK c D s)
    {x : Farming.State} (he : Farming.exec c.farm s.farmV k = .ok x) : Inv c D (s.putFarm x) := by
  have g := Farming.exec_guar he
  have ho : ∀ w ∈ (Call.farming k).actors, ¬ Vaulted c w := hk.actors
  have hp : ∀ w ∈ k.payers, ¬ Vaulted c w := fun w hw => ho w (by
    cases k <;> simp_all [Farming.Call.payers, Call.actors])
  have f : Foreign c D (fun p => p = .farming) s.ledger x.ledger := g.foreign hc h.wf
    (fun w hw => hw.elim (fun h => .inr (hp w h)) (fun h => .inl ⟨.farming, rfl, h⟩))
    (fun _ ha => ha) (fun _ T hT ha => ha)
  exact {
    wf := f.wf
    amm := env_amm (s := s) f (by simp) h.amm
    stb := env_stb (s := s) f (by simp) h.stb
    farm := .step h.farm (.call k (by
      have e1 : ∀ w, ¬ Vaulted c w → ∀ a, w ≠ c.farm.acct a := fun w hw a =>
        not_vaulted_ne (p := .farming) hw ⟨a, rfl⟩
      cases k <;> first | exact trivial | exact e1 _ (ho _ (by simp [Call.actors]))) he)
    lo := env_lo (s := s) f (by simp) h.lo
    str := env_str (s := s) f (by simp) h.str
    stk := env_stk (s := s) (x := { s.lo with ledger := x.ledger }) f (by simp) hc (le_refl _) h.stk
    cl := env_cl (s := s) (x := { s.str with ledger := x.ledger }) f (by simp) (le_refl _) h.cl
    br := env_br (s := s) f h.br
    lp := h.lp
    slp := h.slp
    ext := h.ext
    ct := h.ct
    fast := h.fast
    apart := h.apart }

theorem Inv.loans_call' (hc : c.OK D) (h : Inv c D s) {k : Loans.Call} (ho : ∀ w ∈ k.signers, ¬ Vaulted c w)
    (hwt : k.wt) {x : Loans.State} (he : Loans.exec c.lo s.loV k = .ok x) : Inv c D (s.putLo x) := by
  have g := Loans.exec_guar he
  have f : Foreign c D (fun p => p = .loans) s.ledger x.ledger := g.foreign hc h.wf
    (fun w hw => hw.elim (fun h => .inr (ho w (Loans.payers_sub_signers k w h))) (fun h => .inl ⟨.loans, rfl, h⟩))
    (fun _ ha => ha) (fun _ T hT ha => ha)
  exact {
    wf := f.wf
    amm := env_amm (s := s) f (by simp) h.amm
    stb := env_stb (s := s) f (by simp) h.stb
    farm := env_farm (s := s) f (by simp) h.farm
    lo := .step h.lo (.call k hwt (fun hm => ho _ hm ⟨.loans, rfl⟩) trivial he)
    str := env_str (s := s) f (by simp) h.str
    stk := env_stk (s := s) (x := x) f (by simp) hc (le_refl _) h.stk
    cl := env_cl (s := s) (x := { s.str with ledger := x.ledger }) f (by simp) (le_refl _) h.cl
    br := env_br (s := s) f h.br
    lp := h.lp
    slp := h.slp
    ext := h.ext
    ct := h.ct
    fast := h.fast
    apart := h.apart }

theorem Inv.streaming_call (hc : c.OK D) (h : Inv c D s) {k : Streaming.Call} (hk : (Call.streaming k).OK c D s)
    {x : Streaming.State} (he : Streaming.exec c.str s.strV k = .ok x) : Inv c D (s.putStr x) := by
  have g := Streaming.exec_guar he
  have ho : ∀ w ∈ (Call.streaming k).actors, ¬ Vaulted c w := hk.actors
  have hp : ∀ w ∈ k.payers, ¬ Vaulted c w := fun w hw => ho w (by
    cases k <;> simp_all [Streaming.Call.payers, Call.actors])
  have f : Foreign c D (fun p => p = .streaming) s.ledger x.ledger := g.foreign hc h.wf
    (fun w hw => hw.elim (fun h => .inr (hp w h)) (fun h => .inl ⟨.streaming, rfl, h⟩))
    (fun _ ha => ha) (fun _ T hT ha => ha)
  exact {
    wf := f.wf
    amm := env_amm (s := s) f (by simp) h.amm
    stb := env_stb (s := s) f (by simp) h.stb
    farm := env_farm (s := s) f (by simp) h.farm
    lo := env_lo (s := s) f (by simp) h.lo
    str := .step h.str (.call k (by
      have e1 : ∀ w, ¬ Vaulted c w → w ≠ c.str.acct := fun w hw =>
        not_vaulted_ne (p := .streaming) hw rfl
      cases k <;> first | exact trivial | exact e1 _ (ho _ (by simp [Call.actors]))) he)
    stk := env_stk (s := s) (x := { s.lo with ledger := x.ledger }) f (by simp) hc (le_refl _) h.stk
    cl := env_cl (s := s) (x := x) f (by simp) (le_refl _) h.cl
    br := env_br (s := s) f h.br
    lp := h.lp
    slp := h.slp
    ext := h.ext
    ct := h.ct
    fast := h.fast
    apart := h.apart }

theorem Inv.bridge_put (hc : c.OK D) (h : Inv c D s) {x : Bridge.State} {src cur : Nat → Prop}
    (g : Guar src cur s.ledger x.ledger) (hr : Bridge.Reach c.br x)
    (hs : ∀ w, src w → spends c .bridge w ∨ ¬ Vaulted c w) (hcur : ∀ a, cur a → ¬ Issued c D a)
    (hx : ∀ a, Bridge.IsExternal x a → ¬ Issued c D a) : Inv c D (s.putBr x) := by
  have f : Foreign c D (fun p => p = .bridge) s.ledger x.ledger := g.foreign hc h.wf
    (fun w hw => (hs w hw).elim (fun h => .inl ⟨.bridge, rfl, h⟩) .inr)
    (fun _ ha => hcur _ ha (.inl rfl)) (fun _ T hT ha => hcur _ ha (.inr hT))
  exact {
    wf := f.wf
    amm := env_amm (s := s) f (by simp) h.amm
    stb := env_stb (s := s) f (by simp) h.stb
    farm := env_farm (s := s) f (by simp) h.farm
    lo := env_lo (s := s) f (by simp) h.lo
    str := env_str (s := s) f (by simp) h.str
    stk := env_stk (s := s) (x := { s.lo with ledger := x.ledger }) f (by simp) hc (le_refl _) h.stk
    cl := env_cl (s := s) (x := { s.str with ledger := x.ledger }) f (by simp) (le_refl _) h.cl
    br := hr
    lp := h.lp
    slp := h.slp
    ext := hx
    ct := h.ct
    fast := h.fast
    apart := h.apart }

theorem Inv.staking_call (hc : c.OK D) (h : Inv c D s) {k : Staking.Call} (hk : (Call.staking k).OK c D s)
    {x : Staking.State} (he : Staking.exec c.stk s.stkV k = .ok x) : Inv c D (s.putStk x) := by
  have ho : ∀ w ∈ (Call.staking k).actors, ¬ Vaulted c w := hk.actors
  have hpay : ∀ w, k.pays s.stkV w → ¬ Vaulted c w := by
    intro w hw hv
    cases k with
    | stake w' m => exact ho w' (by simp [Call.actors]) (by rw [show w = w' from hw] at hv; exact hv)
    | unstake w' q p => exact ho w' (by simp [Call.actors]) (by rw [show w = w' from hw] at hv; exact hv)
    | fastMatch ws => exact hw.2 (h.fast w hv)
    | _ => exact hw
  have hx : c.stk.xcmAcct ≠ c.stk.lo.acct := fun e => by
    have := hc.apart .staking .loans c.stk.xcmAcct (.inr rfl) e
    cases this
  obtain ⟨g, hpath, hfast, hid, hreq⟩ := Staking.exec_guar he hc.stk.loans hx
    (fun hp => hpay _ hp ⟨.loans, rfl⟩)
  have f : Foreign c D (fun p => p = .staking ∨ p = .loans) s.ledger x.lo.ledger := g.foreign hc h.wf
    (fun w hw => by
      rcases hw with h1 | h1 | h1 | h1
      · exact .inr (hpay w h1)
      · exact .inl ⟨.staking, .inl rfl, .inl h1⟩
      · exact .inl ⟨.staking, .inl rfl, .inr h1⟩
      · exact .inl ⟨.loans, .inr rfl, .inl h1⟩)
    (fun hn => absurd (.inl rfl) hn)
    (fun _ T hT ha => by
      rcases ha with rfl | rfl | rfl
      · exact hc.stakingD hT
      · exact hc.liquidD hT
      · exact hc.collateralD hT)
  have hq : s.query ≤ x.nextId := hid
  exact {
    wf := f.wf
    amm := env_amm (s := s) f (by simp) h.amm
    stb := env_stb (s := s) f (by simp) h.stb
    farm := env_farm (s := s) f (by simp) h.farm
    lo := (lo_path hc hpath h.wf h.lo).2
    str := env_str (s := s) f (by simp) h.str
    stk := .step h.stk (.call k (by
      have e1 : ∀ w, ¬ Vaulted c w → w ≠ c.stk.acct := fun w hw => not_vaulted_ne (p := .staking) hw rfl
      cases k with
      | forceLedger i n => exact ⟨hk.cons i n rfl, fun l hl => hk.force i n l rfl hl⟩
      | stake w m => exact e1 _ (ho _ (by simp [Call.actors]))
      | unstake w m p => exact e1 _ (ho _ (by simp [Call.actors]))
      | cancelUnstake w m => exact e1 _ (ho _ (by simp [Call.actors]))
      | _ => exact trivial) trivial he)
    cl := env_cl (s := s) (x := { s.str with ledger := x.lo.ledger }) f (by simp) hq h.cl
    br := env_br (s := s) f h.br
    lp := h.lp
    slp := h.slp
    ext := h.ext
    ct := h.ct
    fast := fun w hv => hfast w (fun hp => hpay w hp hv) (fun m e => by
      subst e; exact ho w (by simp [Call.actors]) hv) (h.fast w hv)
    apart := fun y hy => by
      show s.cl.requests y.1 = none
      rcases hreq y hy with h1 | h1
      · exact h.apart y h1
      · cases e : s.cl.requests y.1 with
        | none => rfl
        | some r =>
          have h2 : y.1 < s.query := ((Crowdloans.Reach.inv hc.cl h.cl).reqs y.1 r e).2
          have h3 : s.query ≤ y.1 := h1
          omega }

theorem Inv.crowd_put (hc : c.OK D) (h : Inv c D s) {k : Crowdloans.Call}
    (ho : ∀ w ∈ k.payers, ¬ Vaulted c w) (hct : ∀ a ∈ k.newCtoken, D a)
    {x : Crowdloans.State} (he : Crowdloans.exec c.cl s.clV k = .ok x) : Inv c D (s.putCl x) := by
  obtain ⟨g, hict, hstr, hid, hreq⟩ := Crowdloans.exec_guar he
  have f : Foreign c D (fun p => p = .crowdloans ∨ p = .streaming) s.ledger x.str.ledger := g.foreign hc h.wf
    (fun w hw => by
      rcases hw with (h1 | h1 | h1) | h1
      · exact .inr (ho w h1)
      · exact .inl ⟨.crowdloans, .inl rfl, .inl h1⟩
      · exact .inl ⟨.crowdloans, .inl rfl, .inr h1⟩
      · exact .inl ⟨.streaming, .inr rfl, h1⟩)
    (fun _ ha => by
      rcases ha with h1 | h1
      · exact hc.relay h1.symm
      · exact hc.liquidD (h.ct _ h1))
    (fun hn => absurd (.inl rfl) hn)
  have hq : s.query ≤ x.nextQuery := hid
  exact {
    wf := f.wf
    amm := env_amm (s := s) f (by simp) h.amm
    stb := env_stb (s := s) f (by simp) h.stb
    farm := env_farm (s := s) f (by simp) h.farm
    lo := env_lo (s := s) f (by simp) h.lo
    str := by
      refine str_step hc (fun hs => ?_) hstr h.wf h.str
      rcases hs with h1 | h1 | h1
      · exact ho _ h1 ⟨.streaming, rfl⟩
      · have := hc.apart .crowdloans .streaming c.str.acct (.inl h1) rfl
        cases this
      · have := hc.apart .crowdloans .streaming c.str.acct (.inr h1) rfl
        cases this
    stk := env_stk (s := s) (x := { s.lo with ledger := x.str.ledger }) f (by simp) hc hq h.stk
    cl := .call h.cl (by
      cases k with
      | contribute w p m e => exact not_vaulted_ne (p := .crowdloans) (ho w (by simp [Crowdloans.Call.payers])) rfl
      | createVault k ct p cap e => exact hct ct (by simp [Crowdloans.Call.newCtoken])
      | _ => exact trivial) he
    br := env_br (s := s) f h.br
    lp := h.lp
    slp := h.slp
    ext := h.ext
    ct := fun a ha => (hict a ha).elim (h.ct a) (hct a)
    fast := h.fast
    apart := fun y hy => by
      show x.requests y.1 = none
      by_contra hn
      rcases hreq y.1 hn with h1 | h1
      · exact h1 (h.apart y hy)
      · have h2 : y.1 < s.query := (Staking.ReachP.inv hc.stk h.stk).ids y hy
        have h3 : s.query ≤ y.1 := h1
        omega }

theorem Inv.call (hc : c.OK D) (h : Inv c D s) {k : Call} (hk : k.OK c D s) (he : exec c s k = .ok s') :
    Inv c D s' := by
  cases k with
  | amm k =>
    simp only [exec, bind_ok_iff, pure_ok_iff] at he
    obtain ⟨x, hx, rfl⟩ := he
    exact h.amm_call hc hk hx
  | stable k =>
    simp only [exec, bind_ok_iff, pure_ok_iff] at he
    obtain ⟨x, hx, rfl⟩ := he
    exact h.stable_call hc hk hx
  | farming k =>
    simp only [exec, bind_ok_iff, pure_ok_iff] at he
    obtain ⟨x, hx, rfl⟩ := he
    exact h.farming_call hc hk hx
  | loans k =>
    simp only [exec, bind_ok_iff, pure_ok_iff] at he
    obtain ⟨x, hx, rfl⟩ := he
    exact h.loans_call' hc hk.actors (hk.wt k rfl) hx
  | streaming k =>
    simp only [exec, bind_ok_iff, pure_ok_iff] at he
    obtain ⟨x, hx, rfl⟩ := he
    exact h.streaming_call hc hk hx
  | staking k =>
    simp only [exec, bind_ok_iff, pure_ok_iff] at he
    obtain ⟨x, hx, rfl⟩ := he
    exact h.staking_call hc hk hx
  | crowdloans k =>
    have hplain : ∀ {s'}, (do let x ← Crowdloans.exec c.cl s.clV k; pure (s.putCl x) : R State) = .ok s' →
        Inv c D s' := by
      intro s' he
      simp only [bind_ok_iff, pure_ok_iff] at he
      obtain ⟨x, hx, rfl⟩ := he
      exact h.crowd_put hc hk.actors (hk.ct k rfl) hx
    cases k with
    | redeemAndLend who k m =>
      simp only [exec, crowd, redeemAndLend, bind_ok_iff, pure_ok_iff] at he
      obtain ⟨_, _, x, hx, y, hy, rfl⟩ := he
      have hw : ¬ Vaulted c who := hk.actors who (by simp [Call.actors, Crowdloans.Call.payers])
      have h1 : Inv c D (s.putCl x) := h.crowd_put hc (k := .redeem who k m)
        (fun w hm => by simp only [Crowdloans.Call.payers, List.mem_singleton] at hm; rw [hm]; exact hw)
        (fun a ha => by simp [Crowdloans.Call.newCtoken] at ha) hx
      exact h1.loans_call' hc (k := .mint who c.cl.relay m)
        (fun w hm => by simp only [Loans.Call.signers, List.mem_singleton] at hm; rw [hm]; exact hw) trivial hy
    | _ => exact hplain he
  | bridge k =>
    simp only [exec, bind_ok_iff, pure_ok_iff] at he
    obtain ⟨x, hx, rfl⟩ := he
    obtain ⟨g, hext⟩ := Bridge.exec_guar hx
    refine h.bridge_put hc g (.step h.br (.call k hx)) (fun w hw => ?_) h.ext (fun a ha => ?_)
    · exact hw.elim (fun h1 => .inr (hk.actors w h1)) .inl
    · exact (hext a ha).elim (h.ext a) (hk.ext k rfl a)
  | bridgeBlock =>
    simp only [exec, Except.ok.injEq] at he
    subst he
    exact h.bridge_put hc (src := fun _ => False) (cur := fun _ => False) Guar.refl (.step h.br .block)
      (fun _ h => h.elim) (fun _ h => h.elim) h.ext
  | bridgeMembers ms =>
    simp only [exec, Except.ok.injEq] at he
    subst he
    obtain ⟨e1, e2⟩ := Bridge.changeMembers_same (c := c.br) (s := s.brV) ms
    refine h.bridge_put hc (src := fun _ => False) (cur := fun _ => False) ?_ (.step h.br (.members ms))
      (fun _ h => h.elim) (fun _ h => h.elim) (fun a ha => ?_)
    · rw [e1]; exact Guar.refl
    · obtain ⟨t, ht, hx⟩ := ha
      rw [e2] at ht
      exact h.ext a ⟨t, ht, hx⟩

/-! ### The rest of the world -/

theorem Inv.world (h : Inv c D s) (w : World c D s s') : Inv c D s' := by
  obtain ⟨same, wf, bal, iss, query, amm, stb, farm, time, block, str, relay⟩ := w
  generalize s'.ledger = l at *
  generalize s'.query = q at *
  generalize s'.amm.block = b1 at *
  generalize s'.stb.block = b2 at *
  generalize s'.farm.now = b3 at *
  generalize s'.lo.prices = pr at *
  generalize s'.lo.time = t1 at *
  generalize s'.lo.block = b4 at *
  generalize s'.str.now = t2 at *
  generalize s'.stk.fee = x1 at *
  generalize s'.stk.link = x2 at *
  generalize s'.stk.relayBlock = x3 at *
  generalize s'.stk.relayEra = x4 at *
  generalize s'.stk.relayLedger = x5 at *
  generalize s'.cl.relayBlock = y1 at *
  generalize s'.cl.fee = y2 at *
  generalize s'.cl.sendOk = y3 at *
  generalize s'.cl.decimal = y4 at *
  generalize s'.cl.nonce = y5 at *
  subst same
  exact {
    wf := wf
    amm := .step h.amm (.env ⟨rfl, rfl, rfl, wf, bal _ ⟨.amm, .inl rfl⟩, bal _ ⟨.amm, .inr rfl⟩, amm⟩)
    stb := .step h.stb (.env ⟨rfl, wf, bal _ ⟨.stable, .inl rfl⟩, bal _ ⟨.stable, .inr rfl⟩, stb⟩)
    farm := .step h.farm (.env ⟨rfl, rfl, rfl, farm, wf, fun x => bal _ ⟨.farming, x, rfl⟩ x⟩)
    lo := .step h.lo (.env ⟨rfl, wf, bal _ ⟨.loans, rfl⟩, time, block⟩)
    str := .step h.str (.env ⟨rfl, rfl, rfl, rfl, rfl, str, wf, bal _ ⟨.streaming, rfl⟩⟩)
    stk := .step h.stk (.env ⟨rfl, wf, bal _ ⟨.staking, rfl⟩ _, bal _ ⟨.staking, rfl⟩ _, iss _ (.inl rfl), query,
      relay⟩)
    cl := .env h.cl ⟨rfl, wf, bal _ ⟨.crowdloans, rfl⟩ _, fun T hT => iss T (.inr hT), query⟩
    br := .step h.br (.env ⟨rfl, wf⟩)
    lp := h.lp
    slp := h.slp
    ext := h.ext
    ct := h.ct
    fast := h.fast
    apart := h.apart }

theorem Reach.inv (hc : c.OK D) (h : Reach c D s) : Inv c D s := by
  induction h with
  | init g => exact g.inv
  | step _ hs ih =>
    cases hs with
    | call k hk he => exact ih.call hc hk he
    | world w => exact ih.world w

end Verif.System
