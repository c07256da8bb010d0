import Verif.Oracle.Props
import Verif.Prices.Lp

/-!
# Oracle: C206, C207
-/

namespace Verif.Oracle
open Verif Verif.Prices

variable {c : Cfg} {s s' : State}

/-! ## What a feed does -/

theorem doFeed_now : ∀ (vs : List (Nat × Nat)) (s : State) (w : Nat), (doFeed c s w vs).now = s.now
  | [], _, _ => rfl
  | (k, v) :: vs, s, w => (doFeed_now vs (feedOne c s w k v) w).trans (feedOne_now s w k v)

theorem doFeed_members : ∀ (vs : List (Nat × Nat)) (s : State) (w : Nat), (doFeed c s w vs).members = s.members
  | [], _, _ => rfl
  | (k, v) :: vs, s, w => (doFeed_members vs (feedOne c s w k v) w).trans (feedOne_members s w k v)

theorem doFeed_dispatched : ∀ (vs : List (Nat × Nat)) (s : State) (w : Nat),
    (doFeed c s w vs).dispatched = s.dispatched
  | [], _, _ => rfl
  | (k, v) :: vs, s, w => (doFeed_dispatched vs (feedOne c s w k v) w).trans (feedOne_dispatched s w k v)

theorem doFeed_values_other {j : Nat} : ∀ (vs : List (Nat × Nat)) (s : State) (w : Nat), j ∉ vs.map (·.1) →
    (doFeed c s w vs).values j = s.values j
  | [], _, _, _ => rfl
  | (k, v) :: vs, s, w, h => by
    rw [List.map_cons, List.mem_cons, not_or] at h
    exact (doFeed_values_other vs (feedOne c s w k v) w h.2).trans (feedOne_other s w k v h.1)

theorem doFeed_raw_other {u j : Nat} : ∀ (vs : List (Nat × Nat)) (s : State) (w : Nat), u ≠ w ∨ j ∉ vs.map (·.1) →
    (doFeed c s w vs).raw u j = s.raw u j
  | [], _, _, _ => rfl
  | (k, v) :: vs, s, w, h => by
    refine (doFeed_raw_other vs (feedOne c s w k v) w (h.imp id (fun h => ?_))).trans ?_
    · exact fun hm => h (List.mem_cons_of_mem _ hm)
    · rw [feedOne_raw, upd2_apply, if_neg]
      rintro ⟨rfl, rfl⟩
      rcases h with h | h
      · exact h rfl
      · exact h List.mem_cons_self

/-- The operator's last value of an asset is stored with the current time. -/
theorem doFeed_raw_self {k : Nat} : ∀ (vs : List (Nat × Nat)) (s : State) (w : Nat), k ∈ vs.map (·.1) →
    ∃ v, (k, v) ∈ vs ∧ (doFeed c s w vs).raw w k = some ⟨v, s.now⟩
  | [], _, _, h => by cases h
  | (k0, v0) :: vs, s, w, h => by
    by_cases hk : k ∈ vs.map (·.1)
    · obtain ⟨v, hv, e⟩ := doFeed_raw_self vs (feedOne c s w k0 v0) w hk
      rw [feedOne_now] at e
      exact ⟨v, List.mem_cons_of_mem _ hv, e⟩
    · have hk0 : k = k0 := by
        rcases List.mem_cons.1 h with h | h
        · exact h
        · exact absurd h hk
      subst hk0
      refine ⟨v0, List.mem_cons_self, ?_⟩
      refine (doFeed_raw_other vs (feedOne c s w k v0) w (.inr hk)).trans ?_
      rw [feedOne_raw, upd2_apply, if_pos ⟨rfl, rfl⟩]

/-- What counts depends on the operators, their values of the asset, and the time. -/
theorem fresh_congr {k : Nat} (hm : s'.members = s.members) (hn : s'.now = s.now) (hr : ∀ w, s'.raw w k = s.raw w k) :
    fresh c s' k = fresh c s k := by
  unfold fresh operators
  simp only [hm, hn, hr]

/-- How many values count depends on the times of the values only. -/
theorem fresh_length_congr {k : Nat} (hm : s'.members = s.members) (hn : s'.now = s.now)
    (hr : ∀ w, (s'.raw w k).map (·.time) = (s.raw w k).map (·.time)) :
    (fresh c s' k).length = (fresh c s k).length := by
  unfold fresh operators
  rw [hm, hn]
  generalize s.members ++ [c.root] = l
  induction l with
  | nil => rfl
  | cons w l ih =>
    have hw := hr w
    cases h1 : s.raw w k with
    | none =>
      rw [h1] at hw
      have h2 : s'.raw w k = none := by
        cases h2 : s'.raw w k with
        | none => rfl
        | some t => rw [h2] at hw; cases hw
      rw [List.filterMap_cons_none (by rw [h2]), List.filterMap_cons_none (by rw [h1])]
      exact ih
    | some t =>
      rw [h1] at hw
      cases h2 : s'.raw w k with
      | none => rw [h2] at hw; cases hw
      | some t' =>
        rw [h2] at hw
        have ht : t'.time = t.time := by simpa using hw
        by_cases hf : s.now < t.time + c.expires
        · rw [List.filterMap_cons_some (b := (w, t')) (by rw [h2]; exact if_pos (by rw [ht]; exact hf)),
            List.filterMap_cons_some (b := (w, t)) (by rw [h1]; exact if_pos hf)]
          simp only [List.length_cons, ih]
        · rw [List.filterMap_cons_none (by rw [h2]; exact if_neg (by rw [ht]; exact hf)),
            List.filterMap_cons_none (by rw [h1]; exact if_neg hf)]
          exact ih

/-- Feeding more does not change how many values of an asset count, once the operator has fed it. -/
theorem doFeed_count {k : Nat} : ∀ (vs : List (Nat × Nat)) (s : State) (w : Nat), (∃ v, s.raw w k = some ⟨v, s.now⟩) →
    (fresh c (doFeed c s w vs) k).length = (fresh c s k).length := by
  intro vs s w ⟨v, hv⟩
  refine fresh_length_congr (doFeed_members ..) (doFeed_now ..) ?_
  intro u
  by_cases hu : u = w
  · subst hu
    by_cases hk : k ∈ vs.map (·.1)
    · obtain ⟨v', _, e⟩ := doFeed_raw_self (c := c) vs s u hk
      rw [e, hv]
      rfl
    · rw [doFeed_raw_other vs s u (.inr hk)]
  · rw [doFeed_raw_other vs s w (.inl hu)]

theorem fresh_feedOne (s : State) (w k v j : Nat) : fresh c (feedOne c s w k v) j = fresh c (putRaw s w k v) j :=
  fresh_congr (feedOne_members ..) (feedOne_now ..) (fun u => by rw [feedOne_raw]; rfl)

/-- After a feed, the price of a fed asset is the middle of what counts, or, if not enough counts, what it was before. -/
theorem doFeed_price (hc : c.OK) {k : Nat} : ∀ (vs : List (Nat × Nat)) (s : State) (w : Nat), k ∈ vs.map (·.1) →
    ((doFeed c s w vs).values k = s.values k ∧
      ((fresh c (doFeed c s w vs) k).length < c.minCount ∨ (fresh c (doFeed c s w vs) k).length = 0)) ∨
    (c.minCount ≤ (fresh c (doFeed c s w vs) k).length ∧
      ∃ x, (doFeed c s w vs).values k = some x ∧ Middle ((fresh c (doFeed c s w vs) k).map (·.2)) x)
  | [], _, _, h => by cases h
  | (k0, v0) :: vs, s, w, h => by
    show ((doFeed c (feedOne c s w k0 v0) w vs).values k = _ ∧ _) ∨ _
    by_cases hk : k ∈ vs.map (·.1)
    · rcases doFeed_price hc vs (feedOne c s w k0 v0) w hk with ⟨e, hl⟩ | h2
      · left
        refine ⟨?_, hl⟩
        rw [e]
        by_cases hk0 : k = k0
        · subst hk0
          have hcount := doFeed_count (c := c) (k := k) vs (feedOne c s w k v0) w
            ⟨v0, by rw [feedOne_raw, upd2_apply, if_pos ⟨rfl, rfl⟩, feedOne_now]⟩
          rw [fresh_feedOne s w k v0 k] at hcount
          rcases feedOne_values hc s w k v0 with ⟨e1, _⟩ | ⟨h1, x, e1, hx⟩
          · exact e1
          · exfalso
            rcases hl with hl | hl
            · omega
            · have := List.length_pos_of_mem hx.mem
              rw [List.length_map] at this
              omega
        · exact feedOne_other s w k0 v0 hk0
      · exact .inr h2
    · have hk0 : k = k0 := by
        rcases List.mem_cons.1 h with h | h
        · exact h
        · exact absurd h hk
      subst hk0
      have hf : fresh c (doFeed c (feedOne c s w k v0) w vs) k = fresh c (putRaw s w k v0) k := by
        rw [← fresh_feedOne s w k v0 k]
        exact fresh_congr (doFeed_members ..) (doFeed_now ..) (fun u => doFeed_raw_other vs _ w (.inr hk))
      show ((doFeed c (feedOne c s w k v0) w vs).values k = s.values k ∧
          ((fresh c (doFeed c (feedOne c s w k v0) w vs) k).length < c.minCount ∨
            (fresh c (doFeed c (feedOne c s w k v0) w vs) k).length = 0)) ∨
        (c.minCount ≤ (fresh c (doFeed c (feedOne c s w k v0) w vs) k).length ∧
          ∃ x, (doFeed c (feedOne c s w k v0) w vs).values k = some x ∧
            Middle ((fresh c (doFeed c (feedOne c s w k v0) w vs) k).map (·.2)) x)
      rw [hf, doFeed_values_other vs (feedOne c s w k v0) w hk]
      exact feedOne_values hc s w k v0

/-! ## C207 -/

/-- A feed is accepted exactly from members of the committee and from root, once per operator in a block, while the list of
those who have fed is not full. -/
theorem C207_who_feeds {o : Option Nat} {vs : List (Nat × Nat)} : (∃ s', feedValues c s o vs = .ok s') ↔
    ∃ w, (o = some w ∧ w ∈ s.members ∨ o = none ∧ w = c.root) ∧ w ∉ s.dispatched ∧
      s.dispatched.length < c.maxDispatched := by
  constructor
  · rintro ⟨s', h⟩
    obtain ⟨w, ha, h1, h2, _⟩ := feedValues_iff.1 h
    exact ⟨w, (account_iff.1 ha).symm, h1, h2⟩
  · rintro ⟨w, ha, h1, h2⟩
    exact ⟨_, feedValues_iff.2 ⟨w, account_iff.2 ha.symm, h1, h2, rfl⟩⟩

/-- What an accepted feed changes: the sender's own values of the named assets are stored with the current time, the price of
each named asset becomes the middle of the unexpired values of the current operators, or stays if there are too few of them,
and nothing else changes. -/
theorem C207_what_a_feed_changes (hc : c.OK) {o : Option Nat} {vs : List (Nat × Nat)}
    (h : feedValues c s o vs = .ok s') :
    ∃ w, (o = some w ∧ w ∈ s.members ∨ o = none ∧ w = c.root) ∧
      s'.members = s.members ∧ s'.now = s.now ∧ s'.dispatched = w :: s.dispatched ∧
      (∀ u k, u ≠ w ∨ k ∉ vs.map (·.1) → s'.raw u k = s.raw u k) ∧
      (∀ k ∈ vs.map (·.1), ∃ v, (k, v) ∈ vs ∧ s'.raw w k = some ⟨v, s.now⟩) ∧
      (∀ k, k ∉ vs.map (·.1) → get s' k = get s k) ∧
      ∀ k ∈ vs.map (·.1),
        (get s' k = get s k ∧ ((fresh c s' k).length < c.minCount ∨ (fresh c s' k).length = 0)) ∨
        (c.minCount ≤ (fresh c s' k).length ∧ ∃ x, get s' k = some x ∧ Middle ((fresh c s' k).map (·.2)) x) := by
  obtain ⟨w, ha, h1, h2, rfl⟩ := feedValues_iff.1 h
  exact ⟨w, (account_iff.1 ha).symm, doFeed_members .., doFeed_now .., doFeed_dispatched ..,
    fun u k hu => doFeed_raw_other vs _ w hu, fun k hk => doFeed_raw_self vs _ w hk,
    fun k hk => doFeed_values_other vs _ w hk, fun k hk => doFeed_price hc vs _ w hk⟩

/-- Only feeds change prices. -/
theorem C207_only_feeds {k : Nat} (h : Step c s s') (hne : get s' k ≠ get s k) :
    ∃ o vs, feedValues c s o vs = .ok s' ∧ k ∈ vs.map (·.1) := by
  cases h with
  | feed o vs h =>
    refine ⟨o, vs, h, ?_⟩
    by_contra hk
    obtain ⟨w, _, _, _, rfl⟩ := feedValues_iff.1 h
    exact hne (doFeed_values_other vs _ w hk)
  | finalize => exact absurd rfl hne
  | members ms h hn => exact absurd rfl hne
  | time d => exact absurd rfl hne

/-- What happens between two ends of blocks. -/
inductive InBlock (c : Cfg) (s : State) : State → Prop
  | refl : InBlock c s s
  | feed {s1 s2 : State} (h : InBlock c s s1) (o : Option Nat) (vs : List (Nat × Nat))
      (hs : feedValues c s1 o vs = .ok s2) : InBlock c s s2
  | members {s1 : State} (h : InBlock c s s1) (ms : List Nat) : InBlock c s { s1 with members := ms }

theorem InBlock.dispatched {w : Nat} (h : InBlock c s s') (hw : w ∈ s.dispatched) : w ∈ s'.dispatched := by
  induction h with
  | refl => exact hw
  | feed h o vs hs ih =>
    obtain ⟨u, _, _, _, rfl⟩ := feedValues_iff.1 hs
    rw [doFeed_dispatched]
    exact List.mem_cons_of_mem _ ih
  | members h ms ih => exact ih

/-- Nobody feeds twice in a block, whatever happens in between. -/
theorem C207_once_per_block {s1 s2 : State} {o : Option Nat} {vs vs' : List (Nat × Nat)}
    (h1 : feedValues c s o vs = .ok s1) (hb : InBlock c s1 s2) : ∀ s3, feedValues c s2 o vs' ≠ .ok s3 := by
  intro s3 h3
  obtain ⟨w, ha, _, _, rfl⟩ := feedValues_iff.1 h1
  obtain ⟨w', ha', hn, _, _⟩ := feedValues_iff.1 h3
  have hw : w' = w := by
    rcases account_iff.1 ha with ⟨rfl, rfl⟩ | ⟨rfl, _⟩
    · rcases account_iff.1 ha' with ⟨_, rfl⟩ | ⟨h, _⟩
      · rfl
      · cases h
    · rcases account_iff.1 ha' with ⟨h, _⟩ | ⟨h, _⟩
      · cases h
      · exact (Option.some.inj h).symm
  subst hw
  exact hn (hb.dispatched (by rw [doFeed_dispatched]; exact List.mem_cons_self))

/-- Operators 2, 3 and 1 feed, and the middle of 100, 101 and 1000 is the price; 1 cannot feed again, an outsider not at
all, and in the next block 1 may feed again. -/
example : (∃ s', feedValues exC ex3 (some 1) [(7, 1000)] = .ok s' ∧ get s' 7 = some ⟨101, 10⟩) ∧
    (fresh exC ex4 7).length = 3 ∧ Middle ((fresh exC ex4 7).map (·.2)) ⟨101, 10⟩ ∧
    (∀ s', feedValues exC ex4 (some 1) [(7, 1)] ≠ .ok s') ∧ (∀ s', feedValues exC ex4 (some 8) [(7, 1)] ≠ .ok s') ∧
    ∃ s', feedValues exC (finalize ex4) (some 1) [(7, 1)] = .ok s' ∧ get s' 7 = some ⟨100, 10⟩ := by
  refine ⟨⟨_, feedValues_iff.2 ⟨1, account_iff.2 (.inr ⟨rfl, by decide +kernel⟩), by decide +kernel, by decide +kernel,
    rfl⟩, by decide +kernel⟩, by decide +kernel, ⟨by decide +kernel, by decide +kernel, by decide +kernel⟩, ?_, ?_,
    ⟨_, feedValues_iff.2 ⟨1, account_iff.2 (.inr ⟨rfl, by decide +kernel⟩), by decide +kernel, by decide +kernel,
    rfl⟩, by decide +kernel⟩⟩
  · intro s' h
    obtain ⟨w, ha, hn, _⟩ := feedValues_iff.1 h
    rcases account_iff.1 ha with ⟨h, _⟩ | ⟨h, _⟩
    · cases h
    · cases h
      exact absurd hn (by decide +kernel)
  · intro s' h
    obtain ⟨w, ha, _⟩ := feedValues_iff.1 h
    rcases account_iff.1 ha with ⟨h, _⟩ | ⟨h, hm⟩
    · cases h
    · cases h
      exact absurd hm (by decide +kernel)

/-! ## C206 -/

/-- No raw value and no price is from the future. -/
theorem Reach.past (hc : c.OK) (h : Reach c s) : (∀ w k t, s.raw w k = some t → t.time ≤ s.now) ∧
    ∀ k t, s.values k = some t → t.time ≤ s.now := by
  induction h with
  | init h =>
    refine ⟨fun w k t ht => ?_, fun k t ht => ?_⟩
    · rw [h.1] at ht; cases ht
    · rw [h.2.1] at ht; cases ht
  | @step s s' h hs ih =>
    cases hs with
    | feed o vs h =>
      obtain ⟨w, ha, _, hn, _, hr, hrs, hv, hvs⟩ := C207_what_a_feed_changes hc h
      have raws : ∀ u k t, s'.raw u k = some t → t.time ≤ s'.now := fun u k t ht => by
        by_cases hu : u ≠ w ∨ k ∉ vs.map (·.1)
        · rw [hr u k hu] at ht
          rw [hn]
          exact ih.1 u k t ht
        · push Not at hu
          obtain ⟨v, _, e⟩ := hrs k hu.2
          rw [hu.1, e] at ht
          cases ht
          exact Nat.le_of_eq hn.symm
      refine ⟨raws, ?_⟩
      intro k t ht
      by_cases hk : k ∈ vs.map (·.1)
      · rcases hvs k hk with ⟨e, _⟩ | ⟨_, x, e, hm⟩
        · rw [show s'.values k = s.values k from e] at ht
          rw [hn]
          exact ih.2 k t ht
        · rw [show s'.values k = some x from e] at ht
          cases ht
          obtain ⟨⟨u, y⟩, hy, rfl⟩ := List.mem_map.1 hm.mem
          exact raws u k y (mem_fresh hy).2.1
      · rw [show s'.values k = s.values k from hv k hk] at ht
        rw [hn]
        exact ih.2 k t ht
    | finalize => exact ih
    | members ms h hn => exact ih
    | time d => exact ⟨fun w k t ht => (ih.1 w k t ht).trans (Nat.le_add_right ..),
        fun k t ht => (ih.2 k t ht).trans (Nat.le_add_right ..)⟩

/-- C206, as one would like it: the price feed never answers a price that is older than `ExpiresIn`. -/
def C206_statement (c : Cfg) : Prop :=
  ∀ (pc : Prices.Cfg) (ps : Prices.State) (s : State) (k : Nat) (t : TSP), Reach c s → ps.world.oracle = get s →
    ps.emergency k = none → getPrice pc ps k = .ok (some t) → s.now ≤ t.time + c.expires

/-- What holds: a price that a feed changes was fed by a current operator and has not expired at that time. -/
theorem C206_new_prices_fresh_partial (hc : c.OK) (hr : Reach c s) (h : Step c s s') {k : Nat} {t : TSP}
    (ht : get s' k = some t) (hne : get s' k ≠ get s k) :
    ∃ w, (w ∈ s'.members ∨ w = c.root) ∧ s'.raw w k = some t ∧ t.time ≤ s'.now ∧ s'.now < t.time + c.expires := by
  obtain ⟨o, vs, hf, hk⟩ := C207_only_feeds h hne
  obtain ⟨w, _, _, _, _, _, _, _, hvs⟩ := C207_what_a_feed_changes hc hf
  rcases hvs k hk with ⟨e, _⟩ | ⟨_, x, e, hm⟩
  · exact absurd e hne
  · rw [e] at ht
    cases ht
    obtain ⟨⟨u, y⟩, hy, rfl⟩ := List.mem_map.1 hm.mem
    obtain ⟨h1, h2, h3⟩ := mem_fresh hy
    refine ⟨u, ?_, h2, ((hr.step h).past hc).1 u k y h2, h3⟩
    unfold operators at h1
    simpa using h1

/-- And with the passing of time alone no price changes, however old it gets. -/
theorem C206_time_keeps_prices {pc : Prices.Cfg} {ps ps' : Prices.State} {d : Nat}
    (h : ps.world.oracle = get s) (h' : ps' = { ps with world := { ps.world with oracle := get { s with now := s.now + d } } })
    (k : Nat) : getPrice pc ps' k = getPrice pc ps k := by
  have : ps' = ps := by
    rw [h']
    show { ps with world := { ps.world with oracle := get s } } = ps
    rw [← h]
  rw [this]

/-- The price feed of the example. -/
def exPs : Prices.State where
  emergency := fun _ => none
  foreign := fun _ => none
  world := {
    oracle := get { ex3 with now := 10 + 100 * exC.expires }
    decimal := fun _ => some 12
    liquid := none
    lsRate := fun _ => none
    fullRate := fun _ => none
    isCtoken := fun _ => false
    vaultRate := fun _ _ => none
    lpPool := fun _ => none
    supply := fun _ => 0 }

/-- After a hundred hours without feeds the price is still answered. -/
theorem C206_refuted : ¬ C206_statement exC := by
  intro h
  have r1 : Reach exC ex1 := .step (.init ex0_fresh) (.feed (some 2) [(7, 100)]
    (feedValues_iff.2 ⟨2, account_iff.2 (.inr ⟨rfl, by decide⟩), by decide, by decide, rfl⟩))
  have r3 : Reach exC ex3 := .step r1 (.feed (some 3) [(7, 101)]
    (feedValues_iff.2 ⟨3, account_iff.2 (.inr ⟨rfl, by decide +kernel⟩), by decide +kernel, by decide +kernel, rfl⟩))
  have r4 : Reach exC { ex3 with now := 10 + 100 * exC.expires } := .step r3 (.time (100 * exC.expires))
  have hp : getPrice ⟨1, 5⟩ exPs 7 = .ok (some ⟨101 * 10 ^ 6, 10⟩) := by decide +kernel
  have := h ⟨1, 5⟩ exPs _ 7 ⟨101 * 10 ^ 6, 10⟩ r4 rfl rfl hp
  exact absurd this (by decide +kernel)

/-- The hypotheses of `C206_new_prices_fresh_partial`: the second feed makes the first price. -/
example : exC.OK ∧ Reach exC ex1 ∧ Step exC ex1 ex3 ∧ get ex3 7 = some ⟨101, 10⟩ ∧ get ex3 7 ≠ get ex1 7 :=
  ⟨deployed_ok _ _, .step (.init ex0_fresh) (.feed (some 2) [(7, 100)]
    (feedValues_iff.2 ⟨2, account_iff.2 (.inr ⟨rfl, by decide⟩), by decide, by decide, rfl⟩)),
    .feed (some 3) [(7, 101)]
    (feedValues_iff.2 ⟨3, account_iff.2 (.inr ⟨rfl, by decide +kernel⟩), by decide +kernel, by decide +kernel, rfl⟩),
    by decide +kernel, by decide +kernel⟩

end Verif.Oracle
