import Verif.Evm.CodecProofs
import Verif.Evm.AbiSpec
import Verif.Prelude.Ledger

/-!
# Properties of the ABI codec (C121 - C123)
-/

namespace Verif.Evm

/-! ## The writer produces the Solidity ABI encoding -/

/-- The items `is` lay out the part `p`: in place when static, as one pointer otherwise. -/
def ItemsOf (is : List Item) (p : Abi.Part) : Prop :=
  if p.static then (flat is = p.enc ∧ ∀ i ∈ is, ∃ w, i = .word w) else is = [.ptr p.enc]

/-- Item lists matched with parts. -/
inductive Match : List Item → List Abi.Part → Prop
  | nil : Match [] []
  | cons {is js p ps} : ItemsOf is p → Match js ps → Match (is ++ js) (p :: ps)

theorem lay_words (off : Nat) (is js : List Item) (h : ∀ i ∈ is, ∃ w, i = .word w) :
    lay off (is ++ js) = (flat is ++ (lay off js).1, (lay off js).2) := by
  induction is with
  | nil => rfl
  | cons i r ih =>
    obtain ⟨w, rfl⟩ := h i List.mem_cons_self
    rw [List.cons_append, lay, ih fun j hj => h j (List.mem_cons_of_mem _ hj)]
    simp [flat]

theorem Match.lay_eq {is ps} (h : Match is ps) (off : Nat) : lay off is = Abi.seqFrom off ps := by
  induction h generalizing off with
  | nil => rfl
  | @cons is js p ps hi _ ih =>
    unfold ItemsOf at hi
    rw [Abi.seqFrom]
    split at hi
    · rename_i hs
      rw [if_pos hs, lay_words off is js hi.2, hi.1, ih]
    · rename_i hs
      rw [if_neg hs, hi, ← ih]
      rfl

theorem Match.flat_len {is ps} (h : Match is ps) : (flat is).length = (ps.map Abi.headLen).sum := by
  induction h with
  | nil => rfl
  | @cons is js p ps hi _ ih =>
    rw [flat_append, List.length_append, List.map_cons, List.sum_cons, ih]
    congr 1
    unfold ItemsOf at hi
    unfold Abi.headLen
    split at hi
    · rename_i hs
      rw [if_pos hs, hi.1]
    · rename_i hs
      rw [if_neg hs, hi]
      simp only [flat, List.append_nil, List.length_replicate]

theorem Match.layout_eq {is ps} (h : Match is ps) : layout is = Abi.seq ps := by
  unfold layout Abi.seq
  rw [h.lay_eq, h.flat_len]

theorem boolWord_eq (b : Bool) : boolWord b = Abi.encBool b := by
  cases b <;> decide +kernel

theorem roundUp_eq (l : List Byte) : padded l = l ++ List.replicate (Abi.roundUp l.length - l.length) 0 := by
  unfold padded Abi.roundUp
  dsimp only
  have : (if l.length % 32 = 0 then l.length / 32 * 32 else (l.length / 32 + 1) * 32) =
      (l.length + 31) / 32 * 32 := by
    split <;> omega
  rw [this]

theorem match_flatMap {α : Type} (f : α → List Item) (g : α → Abi.Part) (vs : List α)
    (h : ∀ x, ItemsOf (f x) (g x)) : Match (vs.flatMap f) (vs.map g) := by
  induction vs with
  | nil => exact .nil
  | cons x vs ih =>
    rw [List.flatMap_cons, List.map_cons]
    exact .cons (h x) ih

theorem allStatic_of_static : (ts : Tys) → (v : ts.D) → ts.static = true →
    ∀ p ∈ Abi.parts ts v, p.static = true
  | .one t, v, h => by
    intro p hp
    have : p = ⟨t.static, Abi.encode t v⟩ := List.mem_singleton.1 hp
    rw [this]; exact h
  | .cons t ts, v, h => by
    have h' : (t.static && ts.static) = true := h
    rw [Bool.and_eq_true] at h'
    intro p hp
    rcases List.mem_cons.1 hp with e | e
    · rw [e]; exact h'.1
    · exact allStatic_of_static ts v.2 h'.2 p e

theorem seq_static {is ps} (h : Match is ps) (hs : ∀ p ∈ ps, p.static = true) :
    flat is = Abi.seq ps ∧ ∀ i ∈ is, ∃ w, i = .word w := by
  have hw : ∀ i ∈ is, ∃ w, i = Item.word w := by
    induction h with
    | nil => simp
    | @cons is js p ps hi _ ih =>
      unfold ItemsOf at hi
      rw [if_pos (hs p List.mem_cons_self)] at hi
      intro i hm
      rcases List.mem_append.1 hm with e | e
      · exact hi.2 i e
      · exact ih (fun q hq => hs q (List.mem_cons_of_mem _ hq)) i e
  refine ⟨?_, hw⟩
  rw [← h.layout_eq]
  unfold layout
  have := lay_words (flat is).length is [] hw
  rw [List.append_nil] at this
  rw [this]
  simp [lay]

theorem tup_itemsOf (ts : Tys) (v : ts.D) (h : Match (ts.items v) (Abi.parts ts v)) :
    ItemsOf ((Ty.tup ts).items v) ⟨(Ty.tup ts).static, Abi.encode (Ty.tup ts) v⟩ := by
  have e : (Ty.tup ts).items v = if ts.static then ts.items v else [.ptr (layout (ts.items v))] := rfl
  rw [e]
  show if ts.static then
      (flat (if ts.static then ts.items v else [.ptr (layout (ts.items v))]) = Abi.seq (Abi.parts ts v) ∧
        ∀ i ∈ (if ts.static then ts.items v else [.ptr (layout (ts.items v))]), ∃ w, i = Item.word w)
    else (if ts.static then ts.items v else [.ptr (layout (ts.items v))]) = [.ptr (Abi.seq (Abi.parts ts v))]
  by_cases hs : ts.static
  · rw [if_pos hs, if_pos hs]
    exact seq_static h (allStatic_of_static ts v hs)
  · rw [if_neg hs, if_neg hs, h.layout_eq]

theorem bytes_itemsOf (l : List Byte) : ItemsOf (Ty.bytes.items l) ⟨Ty.bytes.static, Abi.encode Ty.bytes l⟩ := by
  show [Item.ptr (beBytes 32 l.length ++ padded l)] = [Item.ptr (Abi.encBytes l)]
  rw [roundUp_eq, Abi.encBytes, List.append_assoc]

theorem vec_itemsOf (t : Ty) (vs : List t.D) (h : ∀ x, ItemsOf (t.items x) ⟨t.static, Abi.encode t x⟩) :
    ItemsOf ((Ty.vec t).items vs) ⟨(Ty.vec t).static, Abi.encode (Ty.vec t) vs⟩ := by
  show [Item.ptr (beBytes 32 vs.length ++ layout (vs.flatMap t.items))] =
    [Item.ptr (Abi.encVec t.static (Abi.encode t) vs)]
  rw [(match_flatMap t.items (fun x => ⟨t.static, Abi.encode t x⟩) vs h).layout_eq, Abi.encVec]

mutual
theorem Ty.itemsOf : (t : Ty) → (v : t.D) → ItemsOf (t.items v) ⟨t.static, Abi.encode t v⟩
  | .uint _, _ => ⟨List.append_nil _, fun _ hi => ⟨_, List.mem_singleton.1 hi⟩⟩
  | .bool, b => ⟨(List.append_nil _).trans (boolWord_eq b), fun _ hi => ⟨_, List.mem_singleton.1 hi⟩⟩
  | .bytes, l => bytes_itemsOf l
  | .vec t, vs => vec_itemsOf t vs (fun x => t.itemsOf x)
  | .tup ts, v => tup_itemsOf ts v (ts.match_parts v)
theorem Tys.match_parts : (ts : Tys) → (v : ts.D) → Match (ts.items v) (Abi.parts ts v)
  | .one t, v => by
    have h := Match.cons (t.itemsOf v) Match.nil
    rw [List.append_nil] at h
    exact h
  | .cons t ts, v => Match.cons (t.itemsOf v.1) (ts.match_parts v.2)
end

/-- **C121 (conformance).** What the writer builds for the arguments of a function, or the components of a
tuple, is exactly the Solidity ABI encoding of those values, for every type and every value. -/
theorem C121_writer_is_abi (ts : Tys) (v : ts.D) :
    (ts.write Writer.empty v).build = Abi.seq (Abi.parts ts v) := by
  rw [ts.build_layout, (ts.match_parts v).layout_eq]

/-- **C121 (conformance, with selector).** -/
theorem C121_calldata (sel : Nat) (ts : Tys) (v : ts.D) :
    (ts.write Writer.empty v).buildSel sel = Abi.calldata sel ts v := by
  unfold Writer.buildSel Abi.calldata
  rw [C121_writer_is_abi]

/-- **C121 (round trip).** Decoding ABI encoded calldata gives back the selector and exactly the values that
were encoded, whatever bytes follow them.  The bound says that the input fits the address space. -/
theorem C121_roundtrip (sel : Nat) (ts : Tys) (v : ts.D) (tail : List Byte) (hs : sel < 2 ^ 32)
    (hf : ts.Fits v) (hl : (Abi.calldata sel ts v ++ tail).length ≤ usizeMax) :
    readSelector (Abi.calldata sel ts v ++ tail) = .ok sel ∧
    ∃ r, newSkipSelector (Abi.calldata sel ts v ++ tail) = .ok r ∧
      ∃ r', ts.read r = .ok (v, r') := by
  have e : Abi.calldata sel ts v ++ tail = beBytes 4 sel ++ (layout (ts.items v) ++ tail) := by
    rw [Abi.calldata, ← C121_writer_is_abi, ts.build_layout, List.append_assoc]
  rw [e] at hl ⊢
  have hlen : (beBytes 4 sel ++ (layout (ts.items v) ++ tail)).length =
      4 + (layout (ts.items v) ++ tail).length := by
    rw [List.length_append, beBytes_length]
  have h4 : ¬ (beBytes 4 sel ++ (layout (ts.items v) ++ tail)).length < 4 := by omega
  refine ⟨?_, Reader.new (layout (ts.items v) ++ tail), ?_, ?_⟩
  · unfold readSelector
    rw [if_neg h4, List.take_left' (beBytes_length _ _), ofBe_beBytes 4 sel (by omega)]
  · unfold newSkipSelector
    rw [if_neg h4, List.drop_left' (beBytes_length _ _)]
  · exact ⟨_, ts.read_at _ 0 v (by omega) hf (At_layout (ts.items_wf v hf).1 tail)⟩

/-- **C121 (unambiguous).** Two argument lists of the same types with the same encoding are equal: nobody can
make a call, or a signed message, that means two things. -/
theorem C121_injective (ts : Tys) (v w : ts.D) (hv : ts.Fits v) (hw : ts.Fits w)
    (hl : (Abi.seq (Abi.parts ts v)).length ≤ usizeMax)
    (h : Abi.seq (Abi.parts ts v) = Abi.seq (Abi.parts ts w)) : v = w := by
  rw [← C121_writer_is_abi, ← C121_writer_is_abi] at h
  rw [← C121_writer_is_abi] at hl
  rw [ts.build_layout] at h hl
  rw [ts.build_layout] at h
  have a := At_layout (ts.items_wf v hv).1 []
  have b := At_layout (ts.items_wf w hw).1 []
  rw [← h] at b
  rw [List.append_nil] at a b
  have r1 := ts.read_at _ 0 v hl hv a
  have r2 := ts.read_at _ 0 w hl hw b
  rw [r1] at r2
  injection r2 with r3
  exact congrArg Prod.fst r3

/-! ## Hostile input -/

/-- Not a Rust panic. -/
def NoPanic {α : Type} (x : R α) : Prop := x ≠ .error .panic

theorem NoPanic.ok {α : Type} (a : α) : NoPanic (.ok a : R α) := fun h => by cases h
theorem NoPanic.revert {α : Type} : NoPanic (.error .revert : R α) := fun h => by cases h

theorem NoPanic.bind {α β : Type} {x : R α} {f : α → R β} (hx : NoPanic x)
    (hf : ∀ a, x = .ok a → NoPanic (f a)) : NoPanic (x >>= f) := by
  cases x with
  | error e => intro h; apply hx; rw [error_bind] at h; injection h with h; rw [h]
  | ok a => rw [ok_bind]; exact hf a rfl

theorem NoPanic.ensure {c : Prop} [Decidable c] : NoPanic (ensure c .revert) := by
  unfold Verif.ensure
  split
  · exact .ok _
  · exact .revert

theorem NoPanic.okOr {α : Type} (o : Option α) : NoPanic (okOr o .revert) := by
  cases o with
  | none => exact .revert
  | some a => exact .ok a

theorem rawBytes_noPanic (r : Reader) (n : Nat) : NoPanic (r.rawBytes n) := by
  unfold Reader.rawBytes
  refine .bind ?_ fun a _ => .bind (.okOr _) fun _ _ => .ok _
  unfold Reader.moveCursor
  split
  · exact .ok _
  · exact .revert

theorem usize_noPanic (r : Reader) : NoPanic r.usize :=
  .bind (rawBytes_noPanic _ _) fun _ _ => .bind .ensure fun _ _ => .ok _

theorem pointer_noPanic (r : Reader) : NoPanic r.pointer := by
  unfold Reader.pointer
  refine .bind (usize_noPanic r) fun a _ => .bind .ensure fun u hu => ?_
  rw [ensure_ok_iff] at hu
  unfold Reader.sliceFrom
  rw [if_pos (by omega)]
  exact .ok _

theorem readN_noPanic {α : Type} {f : Reader → R (α × Reader)} (hf : ∀ r, NoPanic (f r)) :
    ∀ n r, NoPanic (readN f n r)
  | 0, _ => .ok _
  | n + 1, r => .bind (hf r) fun a _ => .bind (readN_noPanic hf n a.2) fun _ _ => .ok _

theorem tup_noPanic (ts : Tys) (r : Reader) (h : ∀ r, NoPanic (ts.read r)) :
    NoPanic ((Ty.tup ts).read r) := by
  show NoPanic (if ts.static then ts.read r
    else do
      let (inner, r') ← Reader.pointer r
      let (v, _) ← ts.read inner
      pure (v, r') : R (ts.D × Reader))
  split
  · exact h r
  · exact .bind (pointer_noPanic r) fun a _ => .bind (h a.1) fun _ _ => .ok _

theorem itemsFrom_noPanic (l : List Byte) : NoPanic (itemsFrom l) := by
  unfold itemsFrom
  split
  · exact .ok _
  · exact .revert

mutual
theorem Ty.read_noPanic : (t : Ty) → (r : Reader) → NoPanic (t.read r)
  | .uint _, r => .bind (rawBytes_noPanic r 32) fun _ _ => .ok _
  | .bool, r => .bind (rawBytes_noPanic r 32) fun _ _ => .ok _
  | .bytes, r => .bind (pointer_noPanic r) fun a _ => .bind (usize_noPanic a.1) fun b _ =>
      .bind (rawBytes_noPanic b.2 b.1) fun _ _ => .ok _
  | .vec t, r => .bind (pointer_noPanic r) fun a _ => .bind (usize_noPanic a.1) fun b _ =>
      .bind (itemsFrom_noPanic _) fun c _ => .bind (readN_noPanic (fun r => t.read_noPanic r) b.1 ⟨c, 0⟩)
        fun _ _ => .ok _
  | .tup ts, r => tup_noPanic ts r fun r => ts.read_noPanic r
theorem Tys.read_noPanic : (ts : Tys) → (r : Reader) → NoPanic (ts.read r)
  | .one t, r => t.read_noPanic r
  | .cons t ts, r => .bind (t.read_noPanic r) fun a _ => .bind (ts.read_noPanic a.2) fun _ _ => .ok _
end

/-- Progress of a successful read: the input is kept, and the cursor moves by at least one word and stays
inside the input. -/
def Step (r r' : Reader) : Prop :=
  r'.input = r.input ∧ r.cursor + 32 ≤ r'.cursor ∧ r'.cursor ≤ r'.input.length

theorem rawBytes_ok {r r' : Reader} {n : Nat} {d : List Byte} (h : r.rawBytes n = .ok (d, r')) :
    r'.input = r.input ∧ r'.cursor = r.cursor + n ∧ r.cursor + n ≤ r.input.length ∧ d.length = n := by
  unfold Reader.rawBytes Reader.moveCursor at h
  split at h
  · simp only [ok_bind, bind_ok_iff, okOr_ok_iff, pure_ok_iff] at h
    obtain ⟨d', h1, h2⟩ := h
    unfold getRange at h1
    split at h1
    · injection h1 with h1
      injection h2 with h2 h3
      subst h3 h2 h1
      rename_i hc
      refine ⟨rfl, rfl, hc.2, ?_⟩
      rw [List.length_take, List.length_drop]
      omega
    · cases h1
  · cases h

theorem rawBytes_step {r r' : Reader} {d : List Byte} (h : r.rawBytes 32 = .ok (d, r')) : Step r r' := by
  obtain ⟨h1, h2, h3, -⟩ := rawBytes_ok h
  exact ⟨h1, by omega, by rw [h1]; omega⟩

theorem usize_step {r r' : Reader} {n : Nat} (h : r.usize = .ok (n, r')) : Step r r' := by
  unfold Reader.usize at h
  simp only [bind_ok_iff, Prod.exists, ensure_ok_iff, exists_const, pure_ok_iff] at h
  obtain ⟨w, r1, h1, _, h2⟩ := h
  injection h2 with _ h3
  subst h3
  exact rawBytes_step h1

theorem pointer_step {r r' i : Reader} (h : r.pointer = .ok (i, r')) :
    Step r r' ∧ i.cursor = 0 ∧ i.input.length ≤ r.input.length := by
  unfold Reader.pointer at h
  simp only [bind_ok_iff, Prod.exists, ensure_ok_iff, exists_const, pure_ok_iff] at h
  obtain ⟨w, r1, h1, h2, d, h3, h4⟩ := h
  unfold Reader.sliceFrom at h3
  rw [if_pos (by omega)] at h3
  injection h3 with h3
  injection h4 with h4 h5
  subst h5 h4 h3
  refine ⟨usize_step h1, rfl, ?_⟩
  dsimp only
  rw [List.length_drop]; omega

theorem readN_step {α : Type} {f : Reader → R (α × Reader)} (hf : ∀ r x r', f r = .ok (x, r') → Step r r') :
    ∀ n r vs r', readN f n r = .ok (vs, r') → r.cursor ≤ r.input.length →
      vs.length = n ∧ r.cursor + 32 * n ≤ r.input.length
  | 0, r, vs, r', h, hc => by
    rw [readN, pure_ok_iff] at h
    injection h with h _
    subst h
    exact ⟨rfl, by omega⟩
  | n + 1, r, vs, r', h, hc => by
    rw [readN] at h
    simp only [bind_ok_iff, Prod.exists, pure_ok_iff] at h
    obtain ⟨x, r1, h1, xs, r2, h2, h3⟩ := h
    injection h3 with h3 _
    subst h3
    obtain ⟨s1, s2, s3⟩ := hf _ _ _ h1
    obtain ⟨i1, i2⟩ := readN_step hf n r1 xs r2 h2 (by omega)
    rw [s1] at i2 s3
    exact ⟨by rw [List.length_cons, i1], by omega⟩

/-- **C122 (no panic).** No input makes the decoder panic, for any argument types: malformed calldata is
always a revert. -/
theorem C122_no_panic (ts : Tys) (input : List Byte) :
    readSelector input ≠ .error .panic ∧
    (newSkipSelector input >>= fun r => ts.read r) ≠ .error .panic := by
  refine ⟨?_, ?_⟩
  · unfold readSelector
    split <;> intro h <;> cases h
  · refine NoPanic.bind ?_ fun r _ => ts.read_noPanic r
    unfold newSkipSelector
    split
    · exact .revert
    · exact .ok _

theorem tup_step (ts : Tys) (r r' : Reader) (v : ts.D) (h : (Ty.tup ts).read r = .ok (v, r'))
    (ih : ∀ r v r', ts.read r = .ok (v, r') → Step r r') : Step r r' := by
  have h' : (if ts.static then ts.read r
    else do
      let (inner, r') ← Reader.pointer r
      let (v, _) ← ts.read inner
      pure (v, r') : R (ts.D × Reader)) = .ok (v, r') := h
  split at h'
  · exact ih r v r' h'
  · simp only [bind_ok_iff, Prod.exists, pure_ok_iff] at h'
    obtain ⟨i, r1, h1, w, r2, h2, h3⟩ := h'
    injection h3 with _ h3
    subst h3
    exact (pointer_step h1).1

theorem word_step {α : Type} (g : List Byte → α) (r r' : Reader) (v : α)
    (h : (do
      let (w, r') ← r.rawBytes 32
      pure (g w, r') : R (α × Reader)) = .ok (v, r')) : Step r r' := by
  simp only [bind_ok_iff, Prod.exists, pure_ok_iff] at h
  obtain ⟨w, r1, h1, h2⟩ := h
  injection h2 with _ h2
  subst h2
  exact rawBytes_step h1

theorem bytes_step (r r' : Reader) (v : List Byte) (h : Ty.bytes.read r = .ok (v, r')) : Step r r' := by
  have h' : (do
    let (inner, r') ← r.pointer
    let (n, inner') ← inner.usize
    let (d, _) ← inner'.rawBytes n
    pure (d, r') : R (List Byte × Reader)) = .ok (v, r') := h
  simp only [bind_ok_iff, Prod.exists, pure_ok_iff] at h'
  obtain ⟨i, r1, h1, n, r2, _, d, r3, _, h2⟩ := h'
  injection h2 with _ h2
  subst h2
  exact (pointer_step h1).1

theorem vec_ok (t : Ty) (r r' : Reader) (vs : List t.D) (h : (Ty.vec t).read r = .ok (vs, r'))
    : ∃ i n r2 items r3, r.pointer = .ok (i, r') ∧ i.usize = .ok (n, r2) ∧ itemsFrom i.input = .ok items ∧
      readN t.read n ⟨items, 0⟩ = .ok (vs, r3) := by
  have h' : (do
    let (inner, r') ← r.pointer
    let (n, _) ← inner.usize
    let items ← itemsFrom inner.input
    let (vs, _) ← readN t.read n ⟨items, 0⟩
    pure (vs, r') : R (List t.D × Reader)) = .ok (vs, r') := h
  simp only [bind_ok_iff, Prod.exists, pure_ok_iff] at h'
  obtain ⟨i, r1, h1, n, r2, h2, items, h3, ws, r3, h4, h5⟩ := h'
  injection h5 with h5 h6
  subst h5 h6
  exact ⟨i, n, r2, items, r3, h1, h2, h3, h4⟩

mutual
theorem Ty.read_step : (t : Ty) → (r : Reader) → (v : t.D) → (r' : Reader) → t.read r = .ok (v, r') →
    Step r r'
  | .uint k, r, v, r', h => word_step (fun w => ofBe (w.drop (32 - k))) r r' v h
  | .bool, r, v, r', h => word_step (fun w => w.any (fun b => b ≠ 0)) r r' v h
  | .bytes, r, v, r', h => bytes_step r r' v h
  | .vec t, r, v, r', h => by
    obtain ⟨i, n, r2, items, r3, h1, -⟩ := vec_ok t r r' v h
    exact (pointer_step h1).1
  | .tup ts, r, v, r', h => tup_step ts r r' v h fun r v r' h => ts.read_step r v r' h
theorem Tys.read_step : (ts : Tys) → (r : Reader) → (v : ts.D) → (r' : Reader) → ts.read r = .ok (v, r') →
    Step r r'
  | .one t, r, v, r', h => t.read_step r v r' h
  | .cons t ts, r, v, r', h => by
    rw [Tys.read] at h
    simp only [bind_ok_iff, Prod.exists, pure_ok_iff] at h
    obtain ⟨x, r1, h1, y, r2, h2, h3⟩ := h
    injection h3 with _ h3
    subst h3
    obtain ⟨a1, a2, a3⟩ := t.read_step _ _ _ h1
    obtain ⟨b1, b2, b3⟩ := ts.read_step _ _ _ h2
    exact ⟨b1.trans a1, by omega, b3⟩
end

/-- **C122 (bounded arrays).** Whatever length the caller announces, an accepted array has at most one item
per 32 bytes of input: the announced length cannot make the chain do more work than the data it pays for
(per array). -/
theorem C122_array_bounded (t : Ty) (r r' : Reader) (vs : List t.D) (h : (Ty.vec t).read r = .ok (vs, r')) :
    32 * vs.length ≤ r.input.length := by
  obtain ⟨i, n, r2, items, r3, h1, h2, h3, h4⟩ := vec_ok t r r' vs h
  obtain ⟨_, _, p3⟩ := pointer_step h1
  obtain ⟨e1, e2⟩ := readN_step (fun r x r' h => t.read_step r x r' h) n _ _ _ h4 (Nat.zero_le _)
  unfold itemsFrom at h3
  split at h3
  · injection h3 with h3
    subst h3
    dsimp only at e2
    rw [List.length_drop] at e2
    omega
  · cases h3

/-! ## Examples -/

/-- `f(bytes,bool,uint256[])`. -/
def exSam : Tys := .cons .bytes (.cons .bool (.one (.vec (.uint 32))))
/-- `("dave", true, [1, 2, 3])`. -/
def exSamArgs : exSam.D := (([100, 97, 118, 101] : List Byte), true, ([1, 2, 3] : List Nat))

theorem exSam_fits : exSam.Fits exSamArgs := by
  refine ⟨trivial, trivial, ?_⟩
  intro x hx
  have hx' : x ∈ ([1, 2, 3] : List Nat) := hx
  show uintFits 32 x
  rcases List.mem_cons.1 hx' with h | h
  · subst h; exact ⟨by decide, by decide +kernel⟩
  rcases List.mem_cons.1 h with h | h
  · subst h; exact ⟨by decide, by decide +kernel⟩
  rcases List.mem_cons.1 h with h | h
  · subst h; exact ⟨by decide, by decide +kernel⟩
  · cases h

/-- The example of the Solidity ABI specification: `sam("dave", true, [1,2,3])` has calldata `0xa5643bf2`
followed by nine words: offsets 0x60 and 0xa0 among them. -/
example : (Abi.calldata 0xa5643bf2 exSam exSamArgs).length = 4 + 32 * 9 ∧
    ofBe (((Abi.calldata 0xa5643bf2 exSam exSamArgs).drop 4).take 32) = 0x60 ∧
    ofBe (((Abi.calldata 0xa5643bf2 exSam exSamArgs).drop (4 + 64)).take 32) = 0xa0 := by
  decide +kernel

/-- The round trip theorem applies to it. -/
example : ∃ r, newSkipSelector (Abi.calldata 0xa5643bf2 exSam exSamArgs ++ []) = .ok r ∧
    ∃ r', exSam.read r = .ok (exSamArgs, r') :=
  (C121_roundtrip 0xa5643bf2 exSam exSamArgs [] (by decide) exSam_fits (by decide +kernel)).2

/-- An announced length of 2^32 - 1 with no items reverts. -/
example : errIs ((Ty.vec (.uint 32)).read (Reader.new (beBytes 32 32 ++ beBytes 32 4294967295 ++ beBytes 32 7)))
    .revert = true := by
  decide +kernel

end Verif.Evm
