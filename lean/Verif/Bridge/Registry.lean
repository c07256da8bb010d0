import Verif.Bridge.Spec

set_option linter.unusedSimpArgs false

/-! # Bridge: the registry of resolved nonces -/

namespace Verif.Bridge
open Verif

/-- Membership of a number in a list of intervals. -/
def Cov (reg : List (Nat × Nat)) (n : Nat) : Prop := ∃ r ∈ reg, r.1 ≤ n ∧ n ≤ r.2

theorem inReg_iff {reg : List (Nat × Nat)} {n : Nat} : inReg reg n = true ↔ Cov reg n := by
  simp [inReg, Cov]

theorem mergeGo_spec : ∀ (rs : List (Nat × Nat)) (cur : Nat × Nat), cur.1 ≤ cur.2 → (∀ r ∈ rs, r.1 ≤ r.2) →
    (cur :: rs).Pairwise (fun a b => a.2 + 1 < b.1 ∨ a.2 = b.1) →
    (∀ r ∈ mergeGo cur rs, r.1 ≤ r.2 ∧ cur.1 ≤ r.1) ∧
    (mergeGo cur rs).Pairwise (fun a b => a.2 + 1 < b.1) ∧
    ∀ n, Cov (mergeGo cur rs) n ↔ Cov (cur :: rs) n := by
  intro rs
  induction rs with
  | nil => intro cur hc _ _; simp [mergeGo, Cov, hc]
  | cons r rs ih =>
    intro cur hc hr hp
    have hr1 := hr r List.mem_cons_self
    have hrs : ∀ x ∈ rs, x.1 ≤ x.2 := fun x hx => hr x (List.mem_cons_of_mem _ hx)
    rw [List.pairwise_cons] at hp
    have hcr := hp.1 r List.mem_cons_self
    unfold mergeGo
    split_ifs with hlt
    · obtain ⟨h1, h2, h3⟩ := ih r hr1 hrs hp.2
      refine ⟨?_, ?_, ?_⟩
      · intro x hx
        rcases List.mem_cons.1 hx with rfl | hx
        · exact ⟨hc, Nat.le_refl _⟩
        · have := h1 x hx; exact ⟨this.1, by omega⟩
      · rw [List.pairwise_cons]
        refine ⟨fun x hx => ?_, h2⟩
        have := h1 x hx
        omega
      · intro n
        have := h3 n
        simp only [Cov, List.exists_mem_cons_iff] at this ⊢
        rw [this]
    · have heq : cur.2 = r.1 := by omega
      have hmax : max r.2 cur.2 = r.2 := by omega
      rw [hmax]
      rw [List.pairwise_cons] at hp
      obtain ⟨h1, h2, h3⟩ := ih (cur.1, r.2) (by simp only; omega) hrs
        (List.pairwise_cons.2 ⟨hp.2.1, hp.2.2⟩)
      refine ⟨h1, h2, ?_⟩
      intro n
      rw [h3 n]
      simp only [Cov, List.exists_mem_cons_iff]
      constructor
      · rintro (h | h)
        · by_cases hn : n ≤ cur.2
          · exact .inl ⟨h.1, hn⟩
          · exact .inr (.inl ⟨by omega, h.2⟩)
        · exact .inr (.inr h)
      · rintro (h | h | h)
        · exact .inl ⟨h.1, by omega⟩
        · exact .inl ⟨by omega, h.2⟩
        · exact .inr h

theorem sortReg_self {reg : List (Nat × Nat)} (h : reg.Pairwise (fun a b => a.1 ≤ b.1)) :
    sortReg reg = reg := by
  unfold sortReg
  exact h.insertionSort_eq

theorem sortReg_sorted (reg : List (Nat × Nat)) : (sortReg reg).Pairwise (fun a b => a.1 ≤ b.1) := by
  unfold sortReg
  haveI : Std.Total (fun a b : Nat × Nat => a.1 ≤ b.1) := ⟨fun a b => Nat.le_total _ _⟩
  haveI : IsTrans (Nat × Nat) (fun a b => a.1 ≤ b.1) := ⟨fun a b c => Nat.le_trans⟩
  exact List.pairwise_insertionSort _ _

/-- Recording a fresh nonce adds exactly this nonce and keeps the registry well-formed. -/
theorem addNonce_spec {reg reg' : List (Nat × Nat)} {nonce : Nat} (hg : GoodReg reg)
    (hn : ¬ Cov reg nonce) (h : addNonce reg nonce = .ok reg') :
    GoodReg reg' ∧ ∀ n, Cov reg' n ↔ Cov reg n ∨ n = nonce := by
  unfold addNonce at h
  simp only [bind_ok_iff, ensure_ok_iff, pure_ok_iff, exists_const] at h
  obtain ⟨hpan, rfl⟩ := h
  have hout : ∀ r ∈ reg, nonce < r.1 ∨ r.2 < nonce := by
    intro r hr
    by_cases h1 : r.1 ≤ nonce
    · right
      by_contra h2
      exact hn ⟨r, hr, h1, by omega⟩
    · left; omega
  -- the touched list
  have ht : ∀ r ∈ reg, (touch nonce r).1 ≤ (touch nonce r).2 := by
    intro r hr
    have := hg.nonempty r hr
    have := hout r hr
    unfold touch; split_ifs <;> (try simp only) <;> omega
  have htp : (reg.map (touch nonce)).Pairwise (fun a b => a.2 + 1 < b.1 ∨ a.2 = b.1) := by
    rw [List.pairwise_map]
    refine (List.Pairwise.and_mem.1 hg.apart).imp ?_
    rintro a b ⟨ha, hb, hab⟩
    have h1 := hg.nonempty a ha
    have h2 := hg.nonempty b hb
    have h3 := hout a ha
    have h4 := hout b hb
    unfold touch
    split_ifs <;> first | exact Or.inr rfl | omega | (dsimp only; omega)
  have htm : ∀ r ∈ reg.map (touch nonce), r.1 ≤ r.2 := by
    intro r hr
    obtain ⟨x, hx, rfl⟩ := List.mem_map.1 hr
    exact ht x hx
  have hts : (reg.map (touch nonce)).Pairwise (fun a b => a.1 ≤ b.1) := by
    refine (List.Pairwise.and_mem.1 htp).imp ?_
    rintro a b ⟨ha, hb, hab⟩
    have := htm a ha
    omega
  have htc : ∀ n, n ≠ nonce → (Cov (reg.map (touch nonce)) n ↔ Cov reg n) := by
    intro n hne
    constructor
    · rintro ⟨r, hr, h1⟩
      obtain ⟨x, hx, rfl⟩ := List.mem_map.1 hr
      refine ⟨x, hx, ?_⟩
      have := hout x hx
      unfold touch at h1
      split_ifs at h1 <;> (try simp only at h1) <;> omega
    · rintro ⟨x, hx, h1⟩
      refine ⟨touch nonce x, List.mem_map_of_mem hx, ?_⟩
      have := hg.nonempty x hx
      have := hout x hx
      unfold touch
      split_ifs <;> (try simp only) <;> omega
  -- the merged list
  have hmerge : GoodReg (mergeAll (reg.map (touch nonce))) ∧
      ∀ n, Cov (mergeAll (reg.map (touch nonce))) n ↔ Cov (reg.map (touch nonce)) n := by
    unfold mergeAll
    rw [sortReg_self hts]
    cases hl : reg.map (touch nonce) with
    | nil => exact ⟨⟨by simp, List.Pairwise.nil⟩, fun _ => Iff.rfl⟩
    | cons r rs =>
      rw [hl] at htp htm
      obtain ⟨h1, h2, h3⟩ := mergeGo_spec rs r (htm r List.mem_cons_self)
        (fun x hx => htm x (List.mem_cons_of_mem _ hx)) htp
      exact ⟨⟨fun x hx => (h1 x hx).1, h2⟩, h3⟩
  obtain ⟨hm1, hm2⟩ := hmerge
  by_cases hin : inReg (mergeAll (reg.map (touch nonce))) nonce = true
  · simp only [hin, if_true]
    have hs : sortReg (mergeAll (reg.map (touch nonce))) = mergeAll (reg.map (touch nonce)) := by
      apply sortReg_self
      refine (List.Pairwise.and_mem.1 hm1.apart).imp ?_
      rintro a b ⟨ha, hb, hab⟩
      have := hm1.nonempty a ha
      omega
    rw [hs]
    refine ⟨hm1, fun n => ?_⟩
    by_cases hne : n = nonce
    · subst hne; exact ⟨fun _ => .inr rfl, fun _ => inReg_iff.1 hin⟩
    · rw [hm2, htc n hne]; simp [hne]
  · rw [if_neg hin]
    have hnc : ¬ Cov (reg.map (touch nonce)) nonce := fun h => hin (inReg_iff.2 ((hm2 nonce).2 h))
    -- nothing was touched
    have hun : ∀ r ∈ reg, r.1 ≠ nonce + 1 ∧ r.2 + 1 ≠ nonce := by
      intro r hr
      have h1 := hg.nonempty r hr
      have h2 := hout r hr
      constructor
      · intro he
        refine hnc ⟨touch nonce r, List.mem_map_of_mem hr, ?_⟩
        simp only [touch, he, if_true]; omega
      · intro he
        refine hnc ⟨touch nonce r, List.mem_map_of_mem hr, ?_⟩
        have : ¬ r.1 = nonce + 1 := by omega
        simp only [touch, he, if_true, this, if_false]; omega
    have hmap : reg.map (touch nonce) = reg := by
      rw [List.map_congr_left (g := id), List.map_id]
      intro r hr
      obtain ⟨h1, h2⟩ := hun r hr
      simp [touch, h1, h2]
    have hsub : ∀ r ∈ mergeAll (reg.map (touch nonce)), r.1 ≤ r.2 := hm1.nonempty
    have hm3 : ∀ r ∈ mergeAll (reg.map (touch nonce)), nonce + 1 < r.1 ∨ r.2 + 1 < nonce := by
      intro r hr
      have h0 := hm1.nonempty r hr
      have e1 : Cov reg r.1 := by
        have := (hm2 r.1).1 ⟨r, hr, Nat.le_refl _, h0⟩; rwa [hmap] at this
      have e2 : Cov reg r.2 := by
        have := (hm2 r.2).1 ⟨r, hr, h0, Nat.le_refl _⟩; rwa [hmap] at this
      have e3 : ¬ (r.1 ≤ nonce ∧ nonce ≤ r.2) := fun h => hin (inReg_iff.2 ⟨r, hr, h⟩)
      obtain ⟨x, hx, hx1⟩ := e1
      obtain ⟨y, hy, hy1⟩ := e2
      have := hun x hx
      have := hun y hy
      have := hout x hx
      have := hout y hy
      omega
    -- symmetric separation survives sorting
    have hsym : (mergeAll (reg.map (touch nonce)) ++ [(nonce, nonce)]).Pairwise
        (fun a b => a.2 + 1 < b.1 ∨ b.2 + 1 < a.1) := by
      rw [List.pairwise_append]
      refine ⟨hm1.apart.imp Or.inl, List.pairwise_singleton _ _, ?_⟩
      intro a ha b hb
      rw [List.mem_singleton] at hb
      subst hb
      have := hm3 a ha
      simp only; omega
    have hperm : (sortReg (mergeAll (reg.map (touch nonce)) ++ [(nonce, nonce)])).Perm
        (mergeAll (reg.map (touch nonce)) ++ [(nonce, nonce)]) := List.perm_insertionSort _ _
    have hne : ∀ r ∈ sortReg (mergeAll (reg.map (touch nonce)) ++ [(nonce, nonce)]), r.1 ≤ r.2 := by
      intro r hr
      have := hperm.mem_iff.1 hr
      rcases List.mem_append.1 this with h | h
      · exact hm1.nonempty r h
      · rw [List.mem_singleton] at h; subst h; exact Nat.le_refl _
    refine ⟨⟨hne, ?_⟩, ?_⟩
    · have h1 := (hperm.pairwise_iff (R := fun a b => a.2 + 1 < b.1 ∨ b.2 + 1 < a.1)
        (fun {a b} h => h.symm)).2 hsym
      have h2 := sortReg_sorted (mergeAll (reg.map (touch nonce)) ++ [(nonce, nonce)])
      refine (List.Pairwise.and_mem.1 (h1.and h2)).imp ?_
      rintro a b ⟨ha, hb, hab, hle⟩
      have := hne a ha
      have := hne b hb
      omega
    · intro n
      have : Cov (sortReg (mergeAll (reg.map (touch nonce)) ++ [(nonce, nonce)])) n ↔
          Cov (mergeAll (reg.map (touch nonce)) ++ [(nonce, nonce)]) n := by
        unfold Cov
        exact ⟨fun ⟨r, hr, h⟩ => ⟨r, hperm.mem_iff.1 hr, h⟩, fun ⟨r, hr, h⟩ => ⟨r, hperm.mem_iff.2 hr, h⟩⟩
      rw [this]
      have h2 := hm2 n
      rw [hmap] at h2
      simp only [Cov, List.mem_append, or_and_right, exists_or, List.mem_singleton, exists_eq_left] at h2 ⊢
      rw [hmap]
      rw [h2]
      constructor
      · rintro (h | h)
        · exact .inl h
        · right; omega
      · rintro (h | h)
        · exact .inl h
        · right; omega

theorem addNonce_succeeds {reg : List (Nat × Nat)} {nonce : Nat} (h0 : 0 < nonce) (h1 : nonce < maxU64) :
    ∃ reg', addNonce reg nonce = .ok reg' := by
  unfold addNonce
  rw [ensure_of (fun x _ => ⟨h1, .inr (by omega)⟩)]
  exact ⟨_, rfl⟩

end Verif.Bridge
