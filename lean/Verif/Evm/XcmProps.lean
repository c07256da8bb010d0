import Verif.Evm.Xcm
import Verif.Evm.CodecProps

/-!
# Properties of the encoding of XCM locations (C123, C124)
-/

namespace Verif.Evm

/-- What a user expects: a location written by one contract or tool is read back unchanged. -/
def C123_statement : Prop :=
  ∀ (l : MultiLocation) (w : Writer) (tail : List Byte), l.Fits → writeLocation Writer.empty l = .ok w →
    (w.build ++ tail).length ≤ usizeMax →
    ∃ r, readLocation (Reader.new (w.build ++ tail)) = .ok (l, r)

/-- `Ethereum { chain_id: 1 }`. -/
def exEth : MultiLocation := ⟨2, [.globalConsensus (.ethereum 1)]⟩

/-- **C123 (refuted).** The network bytes are written with one extra byte that is not skipped when reading:
`Ethereum { chain_id: 1 }` is read back as chain `7 * 2^56`. -/
theorem C123_ethereum_misread :
    okAnd (do
      let w ← writeLocation Writer.empty exEth
      readLocation (Reader.new (w.build ++ [])))
      (fun x => decide (x.1 = ⟨2, [.globalConsensus (.ethereum (7 * 2 ^ 56))]⟩)) = true := by
  decide +kernel

/-- **C123 (refuted).** -/
theorem C123_refuted : ¬ C123_statement := by
  intro h
  have h1 := C123_ethereum_misread
  rw [okAnd_iff] at h1
  obtain ⟨x, hx, hx2⟩ := h1
  rw [bind_ok_iff] at hx
  obtain ⟨w, hw, hr⟩ := hx
  have hlen : okAnd (writeLocation Writer.empty exEth) (fun w => decide ((w.build ++ []).length ≤ usizeMax)) = true := by
    decide +kernel
  rw [okAnd_iff] at hlen
  obtain ⟨w', hw', hl⟩ := hlen
  rw [hw] at hw'
  injection hw' with hw'
  subst hw'
  obtain ⟨r, hr'⟩ := h exEth w [] (by
    refine ⟨by decide, by decide, ?_⟩
    intro j hj
    rw [List.mem_singleton.1 hj]
    show (1 : Nat) < 256 ^ 8
    decide) hw (of_decide_eq_true hl)
  rw [hr] at hr'
  injection hr' with hr'
  have e : x.1 = exEth := by rw [hr']
  rw [of_decide_eq_true hx2] at e
  revert e
  decide +kernel

/-! ## The networks without a payload, and by genesis -/

/-- Networks whose encoding is right: all but `ByFork` and `Ethereum`. -/
def NetworkId.Plain : NetworkId → Prop
  | .byFork _ _ => False
  | .ethereum _ => False
  | _ => True

/-- Junctions whose encoding is right: no `Plurality`, and only plain networks. -/
def Junction.Plain : Junction → Prop
  | .accountId32 n _ => ∀ x, n = some x → x.Plain
  | .accountIndex64 n _ => ∀ x, n = some x → x.Plain
  | .accountKey20 n _ => ∀ x, n = some x → x.Plain
  | .plurality => False
  | .globalConsensus n => n.Plain
  | _ => True

theorem rawBytes_mid (p a q : List Byte) (n : Nat) (hn : a.length = n) (h : (p ++ (a ++ q)).length ≤ usizeMax) :
    Reader.rawBytes ⟨p ++ (a ++ q), p.length⟩ n = .ok (a, ⟨p ++ (a ++ q), p.length + n⟩) := by
  rw [rawBytes_at (by simp only [List.length_append]; omega) h, List.drop_left, ← hn, List.take_left]

theorem tillEnd_mid (p q : List Byte) (h : (p ++ q).length ≤ usizeMax) :
    Reader.tillEnd ⟨p ++ q, p.length⟩ = .ok (q, ⟨p ++ q, p.length + q.length⟩) := by
  unfold Reader.tillEnd csub
  rw [if_pos (by simp only [List.length_append]; omega)]
  simp only [ok_bind, List.length_append, Nat.add_sub_cancel_left]
  have := rawBytes_mid p q [] q.length rfl (by rw [List.append_nil]; exact h)
  rw [List.append_nil] at this
  exact this

theorem selector_read (a : Byte) (q : List Byte) (h : ([a] ++ q).length ≤ usizeMax) :
    Reader.rawBytes (Reader.new ([a] ++ q)) 1 = .ok ([a], ⟨[a] ++ q, 1⟩) :=
  rawBytes_mid [] [a] q 1 rfl h

theorem networkFrom_cons (a : Byte) (q : List Byte) (h : ([a] ++ q).length ≤ usizeMax) :
    networkFromBytes ([a] ++ q) = networkBody a.val ⟨[a] ++ q, 1⟩ := by
  unfold networkFromBytes
  rw [ensure_of (show [a] ++ q ≠ [] from List.cons_ne_nil _ _), ok_bind, selector_read a q h, ok_bind]
  show networkBody (0 * 256 + a.val) _ = _
  rw [Nat.zero_mul, Nat.zero_add]

theorem junctionFrom_cons (a : Byte) (q : List Byte) (h : ([a] ++ q).length ≤ usizeMax) :
    junctionFromBytes ([a] ++ q) = junctionBody a.val ⟨[a] ++ q, 1⟩ := by
  unfold junctionFromBytes
  rw [ensure_of (show [a] ++ q ≠ [] from List.cons_ne_nil _ _), ok_bind, selector_read a q h, ok_bind]
  show junctionBody (0 * 256 + a.val) _ = _
  rw [Nat.zero_mul, Nat.zero_add]

theorem small_len {n : Nat} (h : n ≤ 100) : n ≤ usizeMax := Nat.le_trans h (by decide)

theorem network_roundtrip (n : Option NetworkId) (hf : ∀ x, n = some x → x.Fits)
    (hp : ∀ x, n = some x → x.Plain) : networkFromBytes (networkToBytes n) = .ok n := by
  cases n with
  | none => decide +kernel
  | some x =>
    cases x with
    | byFork a b => exact (hp _ rfl).elim
    | ethereum c => exact (hp _ rfl).elim
    | byGenesis id =>
      have hl : id.length = 32 := hf _ rfl
      have hb : ([1] ++ id).length ≤ usizeMax := small_len (by rw [List.length_append, hl]; decide)
      show networkFromBytes ([1] ++ id) = _
      rw [networkFrom_cons 1 id hb]
      show (do
        let (id, _) ← Reader.tillEnd ⟨[1] ++ id, 1⟩
        ensure (id.length = 32) .revert
        pure (some (NetworkId.byGenesis id)) : R (Option NetworkId)) = _
      rw [show Reader.tillEnd ⟨[1] ++ id, 1⟩ = _ from tillEnd_mid [1] id hb, ok_bind]
      dsimp only
      rw [ensure_of hl]
      rfl
    | polkadot => decide +kernel
    | kusama => decide +kernel
    | westend => decide +kernel
    | rococo => decide +kernel
    | wococo => decide +kernel
    | bitcoinCore => decide +kernel
    | bitcoinCash => decide +kernel

theorem networkToBytes_len (n : Option NetworkId) (hf : ∀ x, n = some x → x.Fits)
    (hp : ∀ x, n = some x → x.Plain) : (networkToBytes n).length ≤ 33 := by
  cases n with
  | none => decide
  | some x =>
    cases x with
    | byFork a b => exact (hp _ rfl).elim
    | ethereum c => exact (hp _ rfl).elim
    | byGenesis id =>
      have hl : id.length = 32 := hf _ rfl
      show ([1] ++ id).length ≤ 33
      rw [List.length_append, hl]; decide
    | _ => decide

/-- A fixed number of bytes right after the selector byte. -/
theorem after_sel (s : Byte) (a q : List Byte) (n : Nat) (hn : a.length = n)
    (h : ([s] ++ (a ++ q)).length ≤ usizeMax) :
    Reader.rawBytes ⟨[s] ++ (a ++ q), 1⟩ n = .ok (a, ⟨[s] ++ (a ++ q), 1 + n⟩) :=
  rawBytes_mid [s] a q n hn h

/-- The bytes up to the end, after the selector and a fixed number of bytes. -/
theorem rest_after (s : Byte) (a q : List Byte) (n : Nat) (hn : a.length = n)
    (h : ([s] ++ (a ++ q)).length ≤ usizeMax) :
    Reader.tillEnd ⟨[s] ++ (a ++ q), 1 + n⟩ = .ok (q, ⟨[s] ++ (a ++ q), 1 + n + q.length⟩) := by
  have e : [s] ++ (a ++ q) = ([s] ++ a) ++ q := by rw [List.append_assoc]
  have e2 : ([s] ++ a).length = 1 + n := by rw [List.length_append, hn]; rfl
  have := tillEnd_mid ([s] ++ a) q (by rw [← e]; exact h)
  rw [e2] at this
  rw [e]
  exact this

theorem junction_roundtrip (j : Junction) (hf : j.Fits) (hp : j.Plain) :
    ∃ b, junctionToBytes j = .ok b ∧ junctionFromBytes b = .ok j ∧ b.length ≤ 100 := by
  cases j with
  | parachain id =>
    have hid : id < 256 ^ 4 := hf
    have hb : ([0] ++ (beBytes 4 id ++ [])).length ≤ 100 := by
      simp only [List.length_append, beBytes_length]; decide
    refine ⟨[0] ++ beBytes 4 id, rfl, ?_, by rw [List.append_nil] at hb; exact hb⟩
    have e : [0] ++ beBytes 4 id = [0] ++ (beBytes 4 id ++ []) := by rw [List.append_nil]
    rw [e, junctionFrom_cons 0 _ (small_len hb)]
    show (do
      let (d, _) ← Reader.rawBytes ⟨[0] ++ (beBytes 4 id ++ []), 1⟩ 4
      pure (.parachain (ofBe d)) : R Junction) = _
    rw [after_sel 0 _ _ 4 (beBytes_length _ _) (small_len hb), ok_bind]
    dsimp only
    rw [ofBe_beBytes 4 id hid]
    rfl
  | accountId32 n id =>
    obtain ⟨hn, hid⟩ := hf
    have hnl := networkToBytes_len n hn hp
    have hb : ([1] ++ (id ++ networkToBytes n)).length ≤ 100 := by
      simp only [List.length_append, hid, List.length_singleton]; omega
    refine ⟨[1] ++ (id ++ networkToBytes n), by rw [← List.append_assoc]; rfl, ?_, hb⟩
    rw [junctionFrom_cons 1 _ (small_len hb)]
    show (do
      let (a, r1) ← Reader.rawBytes ⟨[1] ++ (id ++ networkToBytes n), 1⟩ 32
      let (n, _) ← r1.tillEnd
      let net ← networkFromBytes n
      pure (.accountId32 net a) : R Junction) = _
    rw [after_sel 1 id _ 32 hid (small_len hb), ok_bind]
    dsimp only
    rw [rest_after 1 id _ 32 hid (small_len hb), ok_bind]
    dsimp only
    rw [network_roundtrip n hn hp]
    rfl
  | accountIndex64 n i =>
    obtain ⟨hn, hi⟩ := hf
    have hnl := networkToBytes_len n hn hp
    have hb : ([2] ++ (beBytes 8 i ++ networkToBytes n)).length ≤ 100 := by
      simp only [List.length_append, beBytes_length, List.length_singleton]; omega
    refine ⟨[2] ++ (beBytes 8 i ++ networkToBytes n), by rw [← List.append_assoc]; rfl, ?_, hb⟩
    rw [junctionFrom_cons 2 _ (small_len hb)]
    show (do
      let (i, r1) ← Reader.rawBytes ⟨[2] ++ (beBytes 8 i ++ networkToBytes n), 1⟩ 8
      let (n, _) ← r1.tillEnd
      let net ← networkFromBytes n
      pure (.accountIndex64 net (ofBe i)) : R Junction) = _
    rw [after_sel 2 _ _ 8 (beBytes_length _ _) (small_len hb), ok_bind]
    dsimp only
    rw [rest_after 2 _ _ 8 (beBytes_length _ _) (small_len hb), ok_bind]
    dsimp only
    rw [network_roundtrip n hn hp, ok_bind, ofBe_beBytes 8 i hi]
    rfl
  | accountKey20 n k =>
    obtain ⟨hn, hk⟩ := hf
    have hnl := networkToBytes_len n hn hp
    have hb : ([3] ++ (k ++ networkToBytes n)).length ≤ 100 := by
      simp only [List.length_append, hk, List.length_singleton]; omega
    refine ⟨[3] ++ (k ++ networkToBytes n), by rw [← List.append_assoc]; rfl, ?_, hb⟩
    rw [junctionFrom_cons 3 _ (small_len hb)]
    show (do
      let (a, r1) ← Reader.rawBytes ⟨[3] ++ (k ++ networkToBytes n), 1⟩ 20
      let (n, _) ← r1.tillEnd
      let net ← networkFromBytes n
      pure (.accountKey20 net a) : R Junction) = _
    rw [after_sel 3 k _ 20 hk (small_len hb), ok_bind]
    dsimp only
    rw [rest_after 3 k _ 20 hk (small_len hb), ok_bind]
    dsimp only
    rw [network_roundtrip n hn hp]
    rfl
  | palletInstance n =>
    have hn : n < 256 := hf
    have hb : ([4] ++ (beBytes 1 n ++ [])).length ≤ 100 := by
      simp only [List.length_append, beBytes_length]; decide
    refine ⟨[4] ++ beBytes 1 n, rfl, ?_, by rw [List.append_nil] at hb; exact hb⟩
    have e : [4] ++ beBytes 1 n = [4] ++ (beBytes 1 n ++ []) := by rw [List.append_nil]
    rw [e, junctionFrom_cons 4 _ (small_len hb)]
    show (do
      let (d, _) ← Reader.rawBytes ⟨[4] ++ (beBytes 1 n ++ []), 1⟩ 1
      pure (.palletInstance (ofBe d)) : R Junction) = _
    rw [after_sel 4 _ _ 1 (beBytes_length _ _) (small_len hb), ok_bind]
    dsimp only
    rw [ofBe_beBytes 1 n (by omega)]
    rfl
  | generalIndex n =>
    have hn : n < 256 ^ 16 := hf
    have hb : ([5] ++ (beBytes 16 n ++ [])).length ≤ 100 := by
      simp only [List.length_append, beBytes_length]; decide
    refine ⟨[5] ++ beBytes 16 n, rfl, ?_, by rw [List.append_nil] at hb; exact hb⟩
    have e : [5] ++ beBytes 16 n = [5] ++ (beBytes 16 n ++ []) := by rw [List.append_nil]
    rw [e, junctionFrom_cons 5 _ (small_len hb)]
    show (do
      let (d, _) ← Reader.rawBytes ⟨[5] ++ (beBytes 16 n ++ []), 1⟩ 16
      pure (.generalIndex (ofBe d)) : R Junction) = _
    rw [after_sel 5 _ _ 16 (beBytes_length _ _) (small_len hb), ok_bind]
    dsimp only
    rw [ofBe_beBytes 16 n hn]
    rfl
  | generalKey l d =>
    obtain ⟨hl, hd⟩ := hf
    have hb : ([6] ++ (beBytes 1 l ++ d)).length ≤ 100 := by
      simp only [List.length_append, beBytes_length, hd]; decide
    refine ⟨[6] ++ (beBytes 1 l ++ d), by rw [← List.append_assoc]; rfl, ?_, hb⟩
    rw [junctionFrom_cons 6 _ (small_len hb)]
    show (do
      let (l, r1) ← Reader.rawBytes ⟨[6] ++ (beBytes 1 l ++ d), 1⟩ 1
      let (rest, _) ← r1.tillEnd
      let d ← copy32 rest
      pure (.generalKey (ofBe l) d) : R Junction) = _
    rw [after_sel 6 _ _ 1 (beBytes_length _ _) (small_len hb), ok_bind]
    dsimp only
    rw [rest_after 6 _ _ 1 (beBytes_length _ _) (small_len hb), ok_bind]
    dsimp only
    unfold copy32
    rw [if_pos hd, ok_bind, ofBe_beBytes 1 l (by omega)]
    rfl
  | onlyChild => exact ⟨[7], rfl, by decide +kernel, by decide⟩
  | plurality => exact hp.elim
  | globalConsensus n =>
    have hn : ∀ x, some n = some x → x.Fits := fun x hx => by
      injection hx with hx; rw [← hx]; exact hf
    have hp' : ∀ x, some n = some x → x.Plain := fun x hx => by
      injection hx with hx; rw [← hx]; exact hp
    have hnl := networkToBytes_len (some n) hn hp'
    have hb : ([9] ++ networkToBytes (some n)).length ≤ 100 := by
      simp only [List.length_append, List.length_singleton]; omega
    refine ⟨[9] ++ networkToBytes (some n), rfl, ?_, hb⟩
    rw [junctionFrom_cons 9 _ (small_len hb)]
    show (do
      let (n, _) ← Reader.tillEnd ⟨[9] ++ networkToBytes (some n), 1⟩
      let net ← networkFromBytes n
      let id ← okOr net .revert
      pure (.globalConsensus id) : R Junction) = _
    rw [show Reader.tillEnd ⟨[9] ++ networkToBytes (some n), 1⟩ = _ from
      tillEnd_mid [9] (networkToBytes (some n)) (small_len hb), ok_bind]
    dsimp only
    rw [network_roundtrip (some n) hn hp']
    rfl

/-- The bytes of a junction that has an encoding. -/
def jb (j : Junction) : List Byte := match junctionToBytes j with
  | .ok b => b
  | .error _ => []

theorem jb_spec {j : Junction} (hf : j.Fits) (hp : j.Plain) :
    junctionToBytes j = .ok (jb j) ∧ junctionFromBytes (jb j) = .ok j := by
  obtain ⟨b, h1, h2, -⟩ := junction_roundtrip j hf hp
  have : jb j = b := by unfold jb; rw [h1]
  rw [this]
  exact ⟨h1, h2⟩

theorem junctionsToBytes_eq : ∀ (js : List Junction), (∀ j ∈ js, j.Fits ∧ j.Plain) →
    junctionsToBytes js = .ok (js.map jb)
  | [], _ => rfl
  | j :: js, h => by
    rw [junctionsToBytes, (jb_spec (h j List.mem_cons_self).1 (h j List.mem_cons_self).2).1, ok_bind,
      junctionsToBytes_eq js fun k hk => h k (List.mem_cons_of_mem _ hk)]
    rfl

theorem readJunction_at (I : List Byte) (c : Nat) (j : Junction) (hI : I.length ≤ usizeMax)
    (h : j.Fits ∧ j.Plain) (hA : At I c (Ty.bytes.items (jb j))) :
    readJunction ⟨I, c⟩ = .ok (j, ⟨I, c + 32 * (Ty.bytes.items (jb j)).length⟩) := by
  unfold readJunction
  rw [bytes_read (jb j) I c hI hA, ok_bind]
  dsimp only
  rw [(jb_spec h.1 h.2).2]
  rfl

/-- **C123 (partial).** Every location without `Plurality` junctions and without the networks `ByFork` and
`Ethereum` is read back exactly as it was written, whatever bytes follow.  Missing: `ByFork` and `Ethereum`,
for which it is false (`C123_refuted`), and `Plurality`, which cannot be written. -/
theorem C123_location_roundtrip_partial (l : MultiLocation) (tail : List Byte) (hf : l.Fits)
    (hp : ∀ j ∈ l.interior, j.Plain) :
    ∃ w, writeLocation Writer.empty l = .ok w ∧ ((w.build ++ tail).length ≤ usizeMax →
      ∃ r, readLocation (Reader.new (w.build ++ tail)) = .ok (l, r)) := by
  obtain ⟨hpar, hn, hj⟩ := hf
  have hjs : ∀ j ∈ l.interior, j.Fits ∧ j.Plain := fun j h => ⟨hj j h, hp j h⟩
  obtain ⟨V, hV⟩ : ∃ V : locationTy.D, V = ((l.parents : Nat), l.interior.map jb) := ⟨_, rfl⟩
  have hw : writeLocation Writer.empty l = .ok (locationTy.write Writer.empty V) := by
    unfold writeLocation
    rw [junctionsToBytes_eq l.interior hjs, hV]
    rfl
  refine ⟨_, hw, fun hlen => ?_⟩
  rw [Ty.build_layout] at hlen ⊢
  have hfit : locationTy.Fits V := by
    rw [hV]
    refine ⟨⟨by decide, by simpa using hpar⟩, fun x _ => trivial⟩
  have hA := At_layout (locationTy.items_wf _ hfit).1 tail
  have hits : locationTy.items V =
      [.ptr (layout ([.word (List.replicate (32 - 1) 0 ++ beBytes 1 l.parents)] ++
        [.ptr (beBytes 32 (l.interior.map jb).length ++
          layout ((l.interior.map jb).flatMap Ty.bytes.items))]))] := by rw [hV]; rfl
  rw [hits] at hA hlen ⊢
  generalize hI : layout [Item.ptr (layout ([.word (List.replicate (32 - 1) 0 ++ beBytes 1 l.parents)] ++
        [.ptr (beBytes 32 (l.interior.map jb).length ++
          layout ((l.interior.map jb).flatMap Ty.bytes.items))]))] ++ tail = I at *
  obtain ⟨⟨h1, p, h2, h3, h4⟩, -⟩ := hA
  obtain ⟨J, hJ⟩ := prefix_split h4
  have hflat : (l.interior.map jb).flatMap Ty.bytes.items =
      l.interior.flatMap (fun j => Ty.bytes.items (jb j)) := List.flatMap_map ..
  rw [hflat, List.length_map] at hJ
  have hwfin : WfItems ([Item.word (List.replicate (32 - 1) 0 ++ beBytes 1 l.parents)] ++
        [.ptr (beBytes 32 l.interior.length ++
          layout (l.interior.flatMap (fun j => Ty.bytes.items (jb j))))]) :=
    wfItems_append (wfItems_one (uintWord_len 1 _ (by decide))) (wfItems_one (be_append_ne _ _))
  have hAin := At_layout hwfin J
  rw [At_append] at hAin
  have hdl : (I.drop p).length ≤ usizeMax := by rw [List.length_drop]; omega
  refine ⟨⟨I, 32⟩, ?_⟩
  unfold readLocation Reader.new
  rw [pointer_at h1 hlen h2 h3, ok_bind]
  dsimp only
  rw [← hJ] at hAin
  rw [uint_read 1 l.parents ⟨by decide, by simpa using hpar⟩ (I.drop p) 0 hdl hAin.1, ok_bind]
  dsimp only
  unfold readJunctions
  rw [readVec_at readJunction (fun j => Ty.bytes.items (jb j)) (fun j => j.Fits ∧ j.Plain)
    (fun j _ => Ty.bytes.items_wf (jb j) trivial) l.interior hjs
    (fun I c x hI hx hA => readJunction_at I c x hI hx hA) (I.drop p) (0 + 32) hdl hAin.2, ok_bind]
  dsimp only
  rw [ensure_of hn]
  rfl

/-- Non-vacuity: a parachain account on Kusama. -/
example : ∃ l : MultiLocation, l.Fits ∧ (∀ j ∈ l.interior, j.Plain) ∧ l.interior.length = 3 := by
  refine ⟨⟨1, [.parachain 2012, .accountId32 (some .kusama) (List.replicate 32 7), .generalKey 3 (List.replicate 32 9)]⟩,
    ⟨by decide, by decide, ?_⟩, ?_, rfl⟩
  · intro j hj
    simp only [List.mem_cons, List.not_mem_nil, or_false] at hj
    rcases hj with rfl | rfl | rfl
    · show 2012 < 256 ^ 4; decide
    · exact ⟨fun x hx => by injection hx with hx; rw [← hx]; trivial, by decide⟩
    · exact ⟨by decide, by decide⟩
  · intro j hj
    simp only [List.mem_cons, List.not_mem_nil, or_false] at hj
    rcases hj with rfl | rfl | rfl
    · trivial
    · intro x hx; injection hx with hx; rw [← hx]; trivial
    · trivial

/-! ## Hostile locations -/

/-- What a user expects: no input makes the decoder of locations panic. -/
def C124_statement : Prop := ∀ input : List Byte, readLocation (Reader.new input) ≠ .error .panic

/-- A location with one `GeneralKey` junction that is cut short: selector 6, a length byte, no data. -/
def exShort : List Byte :=
  (locationTy.write Writer.empty ((1 : Nat), ([[6, 0]] : List (List Byte)))).build

/-- **C124 (refuted).** A `GeneralKey` junction whose data is not exactly 32 bytes makes `copy_from_slice`
panic instead of reverting. -/
theorem C124_refuted : ¬ C124_statement := by
  intro h
  have h1 : errIs (readLocation (Reader.new exShort)) .panic = true := by decide +kernel
  have h2 := h exShort
  revert h1 h2
  cases readLocation (Reader.new exShort) with
  | ok a => intro h1 _; cases h1
  | error e =>
    intro h1 h2
    apply h2
    rw [of_decide_eq_true h1]

theorem tillEnd_noPanic {r : Reader} (h : r.cursor ≤ r.input.length) : NoPanic r.tillEnd := by
  unfold Reader.tillEnd csub
  rw [if_pos h, ok_bind]
  exact rawBytes_noPanic _ _

theorem rawBytes_within {r r' : Reader} {n : Nat} {d : List Byte} (h : r.rawBytes n = .ok (d, r')) :
    r'.cursor ≤ r'.input.length := by
  obtain ⟨h1, h2, h3, -⟩ := rawBytes_ok h
  rw [h1]; omega

theorem networkBody_noPanic (s : Nat) {r : Reader} (h : r.cursor ≤ r.input.length) : NoPanic (networkBody s r) := by
  unfold networkBody
  split
  · exact .ok _
  · exact .bind (tillEnd_noPanic h) fun _ _ => .bind .ensure fun _ _ => .ok _
  · exact .ok _
  · exact .ok _
  · exact .bind (rawBytes_noPanic _ _) fun a _ => .bind (rawBytes_noPanic a.2 _) fun _ _ => .ok _
  · exact .ok _
  · exact .ok _
  · exact .ok _
  · exact .bind (rawBytes_noPanic _ _) fun _ _ => .ok _
  · exact .ok _
  · exact .ok _
  · exact .revert

theorem networkFrom_noPanic (b : List Byte) : NoPanic (networkFromBytes b) :=
  .bind .ensure fun _ _ => .bind (rawBytes_noPanic _ _) fun a ha =>
    networkBody_noPanic _ (rawBytes_within (show _ = Except.ok (a.1, a.2) from ha))

/-- A junction string that is not a malformed `GeneralKey`: when the first byte is 6, it has 34 bytes. -/
def KeySized (b : List Byte) : Prop := b.head? = some 6 → b.length = 34

/-- **C124 (partial).** A junction string is decoded without panic, unless it is a `GeneralKey` whose data is
not 32 bytes.  Missing: that case, in which it panics (`C124_refuted`). -/
theorem C124_junction_no_panic_partial (b : List Byte) (h : KeySized b) :
    junctionFromBytes b ≠ .error .panic := by
  refine NoPanic.bind .ensure fun _ hne => NoPanic.bind (rawBytes_noPanic _ _) fun a ha => ?_
  have hb : b ≠ [] := by rwa [ensure_ok_iff] at hne
  have ha' : Reader.rawBytes (Reader.new b) 1 = .ok (a.1, a.2) := ha
  obtain ⟨i1, i2, i3, i4⟩ := rawBytes_ok ha'
  have hin := rawBytes_within ha'
  clear ha
  obtain ⟨sel, r⟩ := a
  show NoPanic (junctionBody (ofBe sel) r)
  dsimp only at ha' i1 i2 i3 i4 hin
  unfold junctionBody
  split
  · exact .bind (rawBytes_noPanic _ _) fun _ _ => .ok _
  · exact .bind (rawBytes_noPanic _ _) fun c hc => .bind (tillEnd_noPanic (rawBytes_within
      (show _ = Except.ok (c.1, c.2) from hc))) fun d _ => .bind (networkFrom_noPanic d.1) fun _ _ => .ok _
  · exact .bind (rawBytes_noPanic _ _) fun c hc => .bind (tillEnd_noPanic (rawBytes_within
      (show _ = Except.ok (c.1, c.2) from hc))) fun d _ => .bind (networkFrom_noPanic d.1) fun _ _ => .ok _
  · exact .bind (rawBytes_noPanic _ _) fun c hc => .bind (tillEnd_noPanic (rawBytes_within
      (show _ = Except.ok (c.1, c.2) from hc))) fun d _ => .bind (networkFrom_noPanic d.1) fun _ _ => .ok _
  · exact .bind (rawBytes_noPanic _ _) fun _ _ => .ok _
  · exact .bind (rawBytes_noPanic _ _) fun _ _ => .ok _
  · rename_i hsel
    have h34 : b.length = 34 := by
      apply h
      cases b with
      | nil => exact (hb rfl).elim
      | cons x xs =>
        have hr : Reader.rawBytes (Reader.new (x :: xs)) 1 = _ := ha'
        unfold Reader.rawBytes Reader.moveCursor at hr
        split at hr
        · simp only [ok_bind, bind_ok_iff, okOr_ok_iff, pure_ok_iff] at hr
          obtain ⟨d, hd1, hd2⟩ := hr
          unfold getRange at hd1
          split at hd1
          · injection hd1 with hd1
            injection hd2 with hd2 _
            have : sel = [x] := by rw [← hd2, ← hd1]; rfl
            rw [this] at hsel
            have hx : x.val = 6 := by
              have e : ofBe [x] = 0 * 256 + x.val := rfl
              rw [e] at hsel; omega
            have : x = 6 := Fin.ext hx
            rw [this]; rfl
          · cases hd1
        · cases hr
    refine .bind (rawBytes_noPanic _ _) fun c hc => ?_
    have hc' : Reader.rawBytes r 1 = .ok (c.1, c.2) := hc
    obtain ⟨j1, j2, j3, j4⟩ := rawBytes_ok hc'
    refine .bind (tillEnd_noPanic (rawBytes_within hc')) fun d hd => ?_
    have hlen : d.1.length = 32 := by
      have hd' : Reader.tillEnd c.2 = .ok (d.1, d.2) := hd
      unfold Reader.tillEnd at hd'
      simp only [bind_ok_iff, csub_ok_iff] at hd'
      obtain ⟨n, ⟨_, hn⟩, hn2⟩ := hd'
      obtain ⟨_, _, _, k4⟩ := rawBytes_ok hn2
      have hbl : c.2.input.length = 34 := by rw [j1, i1]; exact h34
      have hcur : c.2.cursor = 2 := by rw [j2, i2]; rfl
      omega
    refine .bind ?_ fun _ _ => .ok _
    unfold copy32
    rw [if_pos hlen]
    exact .ok _
  · exact .ok _
  · exact .revert
  · exact .bind (tillEnd_noPanic hin) fun d _ => .bind (networkFrom_noPanic d.1) fun n _ =>
      .bind (.okOr n) fun _ _ => .ok _
  · exact .revert

theorem bytes_read_cursor {r r' : Reader} {b : List Byte} (h : Ty.bytes.read r = .ok (b, r')) :
    r' = ⟨r.input, r.cursor + 32⟩ := by
  rw [Ty.read] at h
  simp only [bind_ok_iff, Prod.exists, pure_ok_iff] at h
  obtain ⟨i, r1, h1, _, _, _, _, _, _, h2⟩ := h
  injection h2 with _ h3
  subst h3
  unfold Reader.pointer Reader.usize at h1
  simp only [bind_ok_iff, Prod.exists, ensure_ok_iff, exists_const, pure_ok_iff] at h1
  obtain ⟨w, r2, ⟨w2, r3, h4, _, h5⟩, _, _, _, h6⟩ := h1
  obtain ⟨i1, i2, -, -⟩ := rawBytes_ok h4
  injection h5 with _ h5
  injection h6 with _ h6
  subst h6 h5
  cases r3
  dsimp only at i1 i2
  rw [i1, i2]

/-- The junction strings of a location: their number and the bytes that hold them, found by following the two
pointers of the ABI encoding of `(uint8, bytes[])`. -/
def junctionArea (input : List Byte) : R (Nat × List Byte) := do
  let (inner, _) ← (Reader.new input).pointer
  let (_, r1) ← (Ty.uint 1).read inner
  let (arr, _) ← r1.pointer
  let (n, _) ← arr.usize
  let items ← itemsFrom arr.input
  pure (n, items)

/-- No junction string of the location is a malformed `GeneralKey`. -/
def KeysSized (input : List Byte) : Prop :=
  ∀ n items, junctionArea input = .ok (n, items) → ∀ k < n, ∀ b r',
    Ty.bytes.read ⟨items, 32 * k⟩ = .ok (b, r') → KeySized b

theorem readJunctions_noPanic (items : List Byte) : ∀ (n k : Nat),
    (∀ i, k ≤ i → i < k + n → ∀ b r', Ty.bytes.read ⟨items, 32 * i⟩ = .ok (b, r') → KeySized b) →
    NoPanic (readN readJunction n ⟨items, 32 * k⟩)
  | 0, _, _ => .ok _
  | n + 1, k, h => by
    rw [readN]
    refine .bind ?_ fun a ha => ?_
    · unfold readJunction
      refine .bind (Ty.read_noPanic .bytes _) fun a ha => ?_
      exact .bind (C124_junction_no_panic_partial a.1 (h k (le_refl _) (by omega) a.1 a.2 ha)) fun _ _ => .ok _
    · have e : a.2 = ⟨items, 32 * (k + 1)⟩ := by
        have ha' : readJunction ⟨items, 32 * k⟩ = .ok (a.1, a.2) := ha
        unfold readJunction at ha'
        simp only [bind_ok_iff, Prod.exists, pure_ok_iff] at ha'
        obtain ⟨b, r1, h1, _, _, h2⟩ := ha'
        injection h2 with _ h3
        rw [← h3, bytes_read_cursor h1]
        rfl
      obtain ⟨j, r1⟩ := a
      dsimp only at e ⊢
      rw [e]
      exact .bind (readJunctions_noPanic items n (k + 1) fun i h1 h2 => h i (by omega) (by omega)) fun _ _ => .ok _

/-- **C124 (partial).** A whole location is decoded without panic, whatever the input, unless one of its junction
strings is a `GeneralKey` whose data is not 32 bytes.  Missing: that case, in which it panics (`C124_refuted`). -/
theorem C124_location_no_panic_partial (input : List Byte) (h : KeysSized input) :
    readLocation (Reader.new input) ≠ .error .panic := by
  unfold readLocation
  refine NoPanic.bind (pointer_noPanic _) fun a ha => NoPanic.bind (Ty.read_noPanic (.uint 1) _) fun b hb =>
    NoPanic.bind ?_ fun _ _ => .ok _
  unfold readJunctions
  refine NoPanic.bind ?_ fun _ _ => .bind .ensure fun _ _ => .ok _
  unfold readVec
  refine NoPanic.bind (pointer_noPanic _) fun c hc => NoPanic.bind (usize_noPanic _) fun d hd =>
    NoPanic.bind (itemsFrom_noPanic _) fun e he => NoPanic.bind ?_ fun _ _ => .ok _
  have hA : junctionArea input = .ok (d.1, e) := by
    unfold junctionArea
    rw [ha, ok_bind]
    show ((Ty.uint 1).read a.1 >>= _) = _
    rw [hb, ok_bind]
    show (b.2.pointer >>= _) = _
    rw [hc, ok_bind]
    show (c.1.usize >>= _) = _
    rw [hd, ok_bind]
    show (itemsFrom c.1.input >>= _) = _
    rw [he, ok_bind]; rfl
  exact readJunctions_noPanic e d.1 0 fun i _ hi b r' hr => h d.1 e hA i (by omega) b r' hr

/-- A location with a hostile junction: `Parachain` cut short (selector 0 without its four bytes). -/
def exCut : List Byte :=
  (locationTy.write Writer.empty ((1 : Nat), ([[0, 7]] : List (List Byte)))).build

/-- `Bytes::read` with its plain type. -/
def readBytes (r : Reader) : R (List Byte × Reader) := Ty.bytes.read r

/-- Does the area hold exactly one string, the one of `exCut`? -/
def exCutArea (x : Nat × List Byte) : Bool :=
  x.1 == 1 && okAnd (readBytes ⟨x.2, 0⟩) (fun y : List Byte × Reader => y.1 == [0, 7])

/-- Non-vacuity: the hypothesis holds for a hostile input, which is rejected. -/
example : KeysSized exCut ∧ errIs (readLocation (Reader.new exCut)) .revert = true := by
  refine ⟨?_, by decide +kernel⟩
  intro n items hA k hk b r' hr
  have h1 : okAnd (junctionArea exCut) exCutArea = true := by decide +kernel
  rw [okAnd_iff] at h1
  obtain ⟨x, hx, hx2⟩ := h1
  rw [hA] at hx
  injection hx with hx
  subst hx
  unfold exCutArea at hx2
  rw [Bool.and_eq_true, okAnd_iff] at hx2
  obtain ⟨h2, y, hy, hy2⟩ := hx2
  have hn : n = 1 := by simpa using h2
  have hk0 : k = 0 := by omega
  subst hk0
  have hy' : Ty.bytes.read ⟨items, 32 * 0⟩ = .ok y := hy
  rw [hr] at hy'
  injection hy' with hy'
  have e : b = ([0, 7] : List Byte) := by
    have : y.1 = ([0, 7] : List Byte) := by simpa using hy2
    rw [← this, ← hy']
  intro h6
  rw [e] at h6
  exact absurd h6 (by decide)

end Verif.Evm
