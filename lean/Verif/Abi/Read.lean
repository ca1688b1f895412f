import Verif.Abi.Write

/-! # The reader reads the ABI encoding -/

namespace Verif.Abi

open Verif

theorem ofBe_append (xs : List Byte) (b : Byte) : ofBe (xs ++ [b]) = ofBe xs * 256 + b.val := by
  simp [ofBe]

theorem ofBe_be : ∀ k n, n < 256 ^ k → ofBe (be k n) = n
  | 0, n, h => by
      obtain rfl : n = 0 := by simpa using h
      rfl
  | k + 1, n, h => by
      have : n / 256 < 256 ^ k := by
        rw [Nat.div_lt_iff_lt_mul (by omega)]
        rw [Nat.pow_succ] at h
        omega
      rw [be, ofBe_append, ofBe_be k _ this]
      show n / 256 * 256 + n % 256 = n
      omega

theorem pow256 : (2 : Nat) ^ 256 = 256 ^ 32 := by norm_num

theorem ofBe_word (n : Nat) (h : n < 2 ^ 256) : ofBe (word n) = n :=
  ofBe_be 32 n (pow256 ▸ h)

theorem ofBe_address (n : Nat) (h : n < 2 ^ 160) : ofBe ((word n).drop 12) = n := by
  have h' : n < 256 ^ 20 := by
    have : (2 : Nat) ^ 160 = 256 ^ 20 := by norm_num
    exact this ▸ h
  have : word n = List.replicate 12 0 ++ be 20 n := be_pad 12 20 n h'
  rw [this, List.drop_append, List.drop_of_length_le (by simp)]
  simp only [List.length_replicate, Nat.sub_self, List.drop_zero, List.nil_append]
  exact ofBe_be 20 n h'

/-! ## Where bytes are -/

/-- The bytes `bs` are at place `c` of `I`. -/
def At (I : List Byte) (c : Nat) (bs : List Byte) : Prop := bs <+: I.drop c

theorem At.nil (I : List Byte) (c : Nat) : At I c [] := List.nil_prefix

theorem At.left {I : List Byte} {c : Nat} {a b : List Byte} (h : At I c (a ++ b)) : At I c a := by
  obtain ⟨r, hr⟩ := h
  exact ⟨b ++ r, by rw [← hr, List.append_assoc]⟩

theorem At.right {I : List Byte} {c : Nat} {a b : List Byte} (h : At I c (a ++ b)) :
    At I (c + a.length) b := by
  obtain ⟨r, hr⟩ := h
  refine ⟨r, ?_⟩
  rw [← List.drop_drop, ← hr, List.append_assoc, List.drop_append, List.drop_of_length_le (by omega)]
  simp

theorem At.drop {I : List Byte} {c : Nat} {a : List Byte} (h : At I c a) : At (I.drop c) 0 a := h

theorem At.len {I : List Byte} {c : Nat} {a : List Byte} (h : At I c a) (ha : a ≠ []) :
    c + a.length ≤ I.length := by
  obtain ⟨r, hr⟩ := h
  have := congrArg List.length hr
  have hp : 0 < a.length := List.length_pos_iff.mpr ha
  simp only [List.length_append, List.length_drop] at this
  omega

theorem At.take {I : List Byte} {c : Nat} {a : List Byte} (h : At I c a) :
    (I.drop c).take a.length = a := by
  obtain ⟨r, hr⟩ := h
  rw [← hr]
  simp

theorem word_ne (n : Nat) : word n ≠ [] := by
  intro h
  have := word_length n
  rw [h] at this
  simp at this

theorem getRange_at {I a : List Byte} {c n : Nat} (h : At I c a) (hn : a.length = n)
    (hl : c + n ≤ I.length) : getRange I c (c + n) = some a := by
  rw [getRange, if_pos hl, Nat.add_sub_cancel_left, ← hn, h.take]

theorem read32_at {I : List Byte} {c n : Nat} (h : At I c (word n)) (hI : I.length ≤ usizeMax) :
    read32 ⟨I, c⟩ = .ok (word n, ⟨I, c + 32⟩) := by
  have hl := h.len (word_ne n)
  rw [word_length] at hl
  simp only [read32, moveCursor, bind_ok, ensure_ok, okOr_ok, pure_ok]
  exact ⟨(c, c + 32, ⟨I, c + 32⟩), ⟨(), by omega, rfl⟩, word n,
    getRange_at h (word_length n) hl, rfl⟩

theorem readU256_at {I : List Byte} {c n : Nat} (h : At I c (word n)) (hn : n < 2 ^ 256)
    (hI : I.length ≤ usizeMax) : readU256 ⟨I, c⟩ = .ok (n, ⟨I, c + 32⟩) := by
  simp only [readU256, read32_at h hI, bind_ok, pure_ok]
  exact ⟨_, rfl, by rw [ofBe_word n hn]⟩

theorem small {n : Nat} (h : n ≤ usizeMax) : n < 2 ^ 256 := by
  unfold usizeMax at h
  norm_num
  omega

theorem readPointer_at {I : List Byte} {c off : Nat} (h : At I c (word off))
    (hI : I.length ≤ usizeMax) (ho : off < I.length) :
    readPointer ⟨I, c⟩ = .ok (⟨I.drop off, 0⟩, ⟨I, c + 32⟩) := by
  simp only [readPointer, readU256_at h (small (by omega)) hI, toUsize, sliceFrom, bind_ok,
    ensure_ok, pure_ok]
  exact ⟨_, rfl, off, ⟨(), by omega, rfl⟩, (), by show ¬ I.length ≤ off; omega, _,
    ⟨(), by show off ≤ I.length; omega, rfl⟩, rfl⟩

theorem readLength_at {I : List Byte} {c n lim : Nat} (h : At I c (word n))
    (hI : I.length ≤ usizeMax) (hn : n ≤ usizeMax) (hl : n ≤ lim) :
    readLength lim ⟨I, c⟩ = .ok (n, ⟨I, c + 32⟩) := by
  simp only [readLength, readU256_at h (small hn) hI, toUsize, bind_ok, ensure_ok, pure_ok]
  exact ⟨_, rfl, n, ⟨(), hn, rfl⟩, (), hl, rfl⟩

/-! ## Lengths -/

theorem heads_length : ∀ (xs : List Item) (off : Nat), (heads off xs).length = headsLen xs
  | [], _ => rfl
  | (true, e) :: xs, off => by
      rw [heads, List.length_append, heads_length xs, word_length, headsLen_cons]
      rfl
  | (false, e) :: xs, off => by
      rw [heads, List.length_append, heads_length xs, headsLen_cons]
      rfl

theorem layout_length (xs : List Item) : headsLen xs ≤ (layout xs).length := by
  rw [layout, List.length_append, heads_length]
  omega

theorem headsLen_ge : ∀ xs : List Item, (∀ x ∈ xs, 32 ≤ x.2.length) → 32 * xs.length ≤ headsLen xs
  | [], _ => by simp [headsLen]
  | x :: xs, h => by
      have h1 := h x List.mem_cons_self
      have h2 := headsLen_ge xs (fun y hy => h y (List.mem_cons_of_mem _ hy))
      have : 32 ≤ headLen x := by
        unfold headLen
        split <;> omega
      rw [headsLen_cons, List.length_cons]
      omega

theorem Prim.enc_len : ∀ (p : Prim) (v : p.Val), (p.enc v).length = 32
  | .bytes32, _ => word_length _
  | .uint _, _ => word_length _
  | .address, _ => word_length _
  | .bool, _ => word_length _

theorem word_app_len (n : Nat) (bs : List Byte) : 32 ≤ (word n ++ bs).length := by
  rw [List.length_append, word_length]
  omega

mutual
theorem Ty.enc_len : ∀ (t : Ty) (v : t.Val), t.proper → 32 ≤ (t.enc v).length
  | .prim p, v, _ => Nat.le_of_eq (Prim.enc_len p v).symm
  | .bytes _, v, _ => word_app_len _ _
  | .array t _, v, _ => word_app_len _ _
  | .tuple ts, v, h => by
      have h1 := headsLen_ge (ts.items v) (Tys.items_len ts v h.2)
      have h2 := layout_length (ts.items v)
      have h3 : (ts.items v).length = ts.count := Tys.items_count ts v
      have h4 : 1 ≤ ts.count := by
        cases ts with
        | nil => exact absurd rfl h.1
        | cons t ts => simp [Tys.count]
      show 32 ≤ (layout (ts.items v)).length
      omega
theorem Tys.items_len : ∀ (ts : Tys) (v : ts.Val), ts.proper → ∀ x ∈ ts.items v, 32 ≤ x.2.length
  | .nil, _, _, x, hx => by simp [Tys.items] at hx
  | .cons t ts, v, h, x, hx => by
      rw [Tys.items, List.mem_cons] at hx
      rcases hx with rfl | hx
      · exact Ty.enc_len t v.1 h.1
      · exact Tys.items_len ts v.2 h.2 x hx
theorem Tys.items_count : ∀ (ts : Tys) (v : ts.Val), (ts.items v).length = ts.count
  | .nil, _ => rfl
  | .cons t ts, v => by
      rw [Tys.items, List.length_cons, Tys.items_count ts v.2, Tys.count]
end

/-! ## Reading what is there -/

/-- A component is where its head says: a static one at the cursor, a dynamic one
at the place the pointer at the cursor gives. -/
def Placed (I : List Byte) (c off : Nat) (x : Item) : Prop :=
  if x.1 then At I c (word off) ∧ At I off x.2 ∧ off < I.length else At I c x.2

/-- Reading with `f` gives the value `v` wherever its encoding `x` is placed. -/
def Reads {α : Type} (f : Reader → Except Err (α × Reader)) (v : α) (x : Item) : Prop :=
  ∀ I c off, I.length ≤ usizeMax → Placed I c off x → f ⟨I, c⟩ = .ok (v, ⟨I, c + headLen x⟩)

theorem readBytes_at (lim : Nat) (bs : List Byte) (h : bs.length ≤ lim) :
    Reads (readBytes lim) bs (true, word bs.length ++ padRight bs) := by
  intro I c off hI hp
  rw [Placed, if_pos rfl] at hp
  obtain ⟨h1, h2, h3⟩ := hp
  have hlen := h2.len (by simp [word_ne])
  rw [List.length_append, word_length] at hlen
  have hpad : bs.length ≤ (padRight bs).length := by simp [padRight]
  have hd : (I.drop off).length ≤ usizeMax := by
    rw [List.length_drop]
    omega
  have hdl : (I.drop off).length = I.length - off := List.length_drop
  have h4 : At (I.drop off) 0 (word bs.length) := h2.left
  have h5 : At (I.drop off) (0 + (word bs.length).length) (padRight bs) :=
    At.right (I := I.drop off) (c := 0) h2
  rw [word_length] at h5
  simp only [readBytes, readPointer_at h1 hI h3, bind_ok]
  refine ⟨_, rfl, _, readLength_at h4 hd (by omega) h, ?_⟩
  simp only [moveCursor, bind_ok, ensure_ok, pure_ok, okOr_ok]
  refine ⟨(0 + 32, 0 + 32 + bs.length, ⟨I.drop off, 0 + 32 + bs.length⟩),
    ⟨(), by show 0 + 32 + bs.length ≤ usizeMax; omega, rfl⟩, bs, ?_, rfl⟩
  exact getRange_at (At.left (b := List.replicate ((32 - bs.length % 32) % 32) 0) h5) rfl
    (by show 0 + 32 + bs.length ≤ (I.drop off).length; omega)

theorem readN_at {α : Type} (f : Reader → Except Err (α × Reader)) (g : α → Item) :
    ∀ (vs : List α) (I : List Byte) (c off : Nat), (∀ v ∈ vs, Reads f v (g v)) →
      (∀ v ∈ vs, (g v).2 ≠ []) → I.length ≤ usizeMax →
      At I c (heads off (vs.map g)) → At I off (tails (vs.map g)) →
      readN f vs.length ⟨I, c⟩ = .ok (vs, ⟨I, c + headsLen (vs.map g)⟩)
  | [], I, c, off, _, _, _, _, _ => rfl
  | v :: vs, I, c, off, hr, hne, hI, h1, h2 => by
      have hv := hr v List.mem_cons_self
      have hnv := hne v List.mem_cons_self
      have ih := fun c off => readN_at f g vs I c off
        (fun x hx => hr x (List.mem_cons_of_mem _ hx))
        (fun x hx => hne x (List.mem_cons_of_mem _ hx)) hI
      rw [List.map_cons] at h1 h2 ⊢
      rw [headsLen_cons]
      simp only [List.length_cons, readN, bind_ok, pure_ok]
      generalize g v = x at hv hnv h1 h2
      obtain ⟨d, e⟩ := x
      cases d
      · have a1 : At I c e := h1.left
        have a2 : At I (c + e.length) (heads off (vs.map g)) := h1.right
        refine ⟨_, hv I c off hI a1, _, ih (c + headLen (false, e)) off a2 h2, ?_⟩
        rw [Nat.add_assoc]
      · have a1 : At I c (word off) := h1.left
        have a2 : At I (c + (word off).length) (heads (off + e.length) (vs.map g)) := h1.right
        have b1 : At I off e := h2.left
        have b2 : At I (off + e.length) (tails (vs.map g)) := h2.right
        rw [word_length] at a2
        have hlt : off < I.length := by
          have := b1.len hnv
          have : 0 < e.length := List.length_pos_iff.mpr hnv
          omega
        refine ⟨_, hv I c off hI ⟨a1, b1, hlt⟩, _,
          ih (c + headLen (true, e)) (off + e.length) a2 b2, ?_⟩
        rw [Nat.add_assoc]

theorem readArray_at {α : Type} (f : Reader → Except Err (α × Reader)) (g : α → Item)
    (lim : Nat) (vs : List α) (hr : ∀ v ∈ vs, Reads f v (g v))
    (hlen : ∀ v ∈ vs, 32 ≤ (g v).2.length) (hl : vs.length ≤ lim) :
    Reads (readArray f lim) vs (true, word vs.length ++ layout (vs.map g)) := by
  intro I c off hI hp
  rw [Placed, if_pos rfl] at hp
  obtain ⟨h1, h2, h3⟩ := hp
  have hlen2 := h2.len (by simp [word_ne])
  rw [List.length_append, word_length] at hlen2
  have hd : (I.drop off).length ≤ usizeMax := by
    rw [List.length_drop]
    omega
  have hdl : (I.drop off).length = I.length - off := List.length_drop
  have hge := headsLen_ge (vs.map g) (by
    intro x hx
    obtain ⟨v, hv, rfl⟩ := List.mem_map.mp hx
    exact hlen v hv)
  rw [List.length_map] at hge
  have hll := layout_length (vs.map g)
  have h4 : At (I.drop off) 0 (word vs.length) := h2.left
  have h5 : At (I.drop off) (0 + (word vs.length).length) (layout (vs.map g)) :=
    At.right (I := I.drop off) (c := 0) h2
  rw [word_length] at h5
  have h6 : At ((I.drop off).drop 32) 0 (heads (headsLen (vs.map g)) (vs.map g)
      ++ tails (vs.map g)) := h5.drop
  have h7 := h6.right
  rw [heads_length, Nat.zero_add] at h7
  simp only [readArray, readPointer_at h1 hI h3, bind_ok, okOr_ok, pure_ok]
  refine ⟨_, rfl, _, readLength_at h4 hd (by omega) hl, (I.drop off).drop 32, ?_, ?_⟩
  · show getRange (I.drop off) 32 (I.drop off).length = _
    rw [getRange, if_pos (Nat.le_refl _), List.take_of_length_le]
    rw [List.length_drop]
  · refine ⟨_, readN_at f g vs _ 0 _ hr ?_ ?_ h6.left h7, rfl⟩
    · intro v hv h
      have := hlen v hv
      rw [h] at this
      simp at this
    · rw [List.length_drop]
      omega

theorem word_head (n : Nat) : headLen (false, word n) = 32 := by
  simp only [headLen, word_length]
  rfl

theorem bytes32_at (v : Nat) (h : v < 2 ^ 256) :
    Reads (Prim.read .bytes32) v (false, word v) := by
  intro I c off hI hp
  have ha : At I c (word v) := hp
  rw [word_head]
  simp only [Prim.read, read32_at ha hI, exactly32, bind_ok, ensure_ok, pure_ok]
  refine ⟨_, rfl, word v, ⟨(), word_length v, rfl⟩, ?_⟩
  exact congrArg (fun n => (n, (⟨I, c + 32⟩ : Reader))) (ofBe_word v h)

theorem uint_at (bits v : Nat) (hb : bits ≤ 256) (h : v < 2 ^ bits) :
    Reads (Prim.read (.uint bits)) v (false, word v) := by
  intro I c off hI hp
  have ha : At I c (word v) := hp
  have hv : v < 2 ^ 256 := Nat.lt_of_lt_of_le h (Nat.pow_le_pow_right (by omega) hb)
  rw [word_head]
  simp only [Prim.read, readU256_at ha hv hI, bind_ok, ensure_ok, pure_ok]
  exact ⟨_, rfl, (), h, rfl⟩

theorem address_at (v : Nat) (h : v < 2 ^ 160) :
    Reads (Prim.read .address) v (false, word v) := by
  intro I c off hI hp
  have ha : At I c (word v) := hp
  rw [word_head]
  simp only [Prim.read, read32_at ha hI, exactly32, bind_ok, ensure_ok, pure_ok]
  refine ⟨_, rfl, word v, ⟨(), word_length v, rfl⟩, ?_⟩
  exact congrArg (fun n => (n, (⟨I, c + 32⟩ : Reader))) (ofBe_address v h)

theorem bool_at (v : Bool) : Reads (Prim.read .bool) v (false, word (bif v then 1 else 0)) := by
  intro I c off hI hp
  have ha : At I c (word (bif v then 1 else 0)) := hp
  have hw : ofBe (word (bif v then 1 else 0)) = bif v then 1 else 0 :=
    ofBe_word _ (by cases v <;> norm_num)
  rw [word_head]
  simp only [Prim.read, read32_at ha hI, exactly32, bind_ok, ensure_ok, pure_ok]
  refine ⟨_, rfl, word (bif v then 1 else 0), ⟨(), word_length _, rfl⟩, ?_⟩
  have hb : decide (ofBe (word (bif v then 1 else 0)) ≠ 0) = v := by
    rw [hw]
    cases v <;> rfl
  exact congrArg (fun n => (n, (⟨I, c + 32⟩ : Reader))) hb

theorem Prim.read_at : ∀ (p : Prim) (v : p.Val), (Ty.prim p).proper → p.fits v →
    Reads p.read v (false, p.enc v)
  | .bytes32, v, _, h => bytes32_at v h
  | .uint bits, v, hb, h => uint_at bits v hb h
  | .address, v, _, h => address_at v h
  | .bool, v, _, _ => bool_at v

theorem readTuple_at {α : Type} (d : Bool) (f : Reader → Except Err (α × Reader)) (v : α)
    (xs : List Item) (hd : d = false → ∀ x ∈ xs, x.1 = false)
    (hf : ∀ I c off, I.length ≤ usizeMax → At I c (heads off xs) → At I off (tails xs) →
      f ⟨I, c⟩ = .ok (v, ⟨I, c + headsLen xs⟩)) :
    Reads (readTuple (!d) f) v (d, layout xs) := by
  intro I c off hI hp
  cases d
  · have ht : tails xs = [] := by
      have := hd rfl
      clear hf hp hd
      induction xs with
      | nil => rfl
      | cons x xs ih =>
        obtain ⟨d, e⟩ := x
        cases d
        · exact ih (fun y hy => this y (List.mem_cons_of_mem _ hy))
        · exact absurd (this _ List.mem_cons_self) (by simp)
    have ha : At I c (heads (headsLen xs) xs ++ tails xs) := hp
    have hl : headLen (false, layout xs) = headsLen xs := by
      simp [headLen, layout, ht, heads_length]
    rw [readTuple, Bool.not_false, if_pos rfl, hl]
    exact hf I c _ hI ha.left (ht ▸ At.nil _ _)
  · obtain ⟨h1, h2, h3⟩ : At I c (word off) ∧ At I off (layout xs) ∧ off < I.length := hp
    have h4 : At (I.drop off) 0 (heads (headsLen xs) xs ++ tails xs) := h2
    have h5 := h4.right
    rw [heads_length, Nat.zero_add] at h5
    rw [readTuple, Bool.not_true, if_neg (by simp)]
    simp only [readPointer_at h1 hI h3, bind_ok, pure_ok]
    exact ⟨_, rfl, _, hf _ 0 _ (by rw [List.length_drop]; omega) h4.left h5, rfl⟩

/-- Reading components in order. -/
def ReadsAll {α : Type} (f : Reader → Except Err (α × Reader)) (v : α) (xs : List Item) : Prop :=
  ∀ I c off, I.length ≤ usizeMax → At I c (heads off xs) → At I off (tails xs) →
    f ⟨I, c⟩ = .ok (v, ⟨I, c + headsLen xs⟩)

theorem readCons_at {α β : Type} (f : Reader → Except Err (α × Reader))
    (g : Reader → Except Err (β × Reader)) (v : α) (vs : β) (x : Item) (xs : List Item)
    (hv : Reads f v x) (hvs : ReadsAll g vs xs) (hlen : 32 ≤ x.2.length) :
    ReadsAll (fun r => do
      let (v, r') ← f r
      let (vs, r'') ← g r'
      pure ((v, vs), r'')) (v, vs) (x :: xs) := by
  intro I c off hI h1 h2
  rw [headsLen_cons]
  simp only [bind_ok, pure_ok]
  obtain ⟨d, e⟩ := x
  cases d
  · have a1 : At I c e := h1.left
    have a2 : At I (c + e.length) (heads off xs) := h1.right
    refine ⟨_, hv I c off hI a1, _, hvs I (c + headLen (false, e)) off hI a2 h2, ?_⟩
    rw [Nat.add_assoc]
  · have a1 : At I c (word off) := h1.left
    have a2 : At I (c + (word off).length) (heads (off + e.length) xs) := h1.right
    have b1 : At I off e := h2.left
    have b2 : At I (off + e.length) (tails xs) := h2.right
    rw [word_length] at a2
    have hlen' : 32 ≤ e.length := hlen
    have hne : e ≠ [] := by
      rintro rfl
      simp at hlen'
    have hlt : off < I.length := by
      have := b1.len hne
      omega
    refine ⟨_, hv I c off hI ⟨a1, b1, hlt⟩, _,
      hvs I (c + headLen (true, e)) (off + e.length) hI a2 b2, ?_⟩
    rw [Nat.add_assoc]

mutual
theorem Ty.read_at : ∀ (t : Ty) (v : t.Val), t.proper → t.fits v →
    Reads t.read v (t.dynamic, t.enc v)
  | .prim p, v, hp, h => Prim.read_at p v hp h
  | .bytes lim, v, _, h => readBytes_at lim v h
  | .array t lim, v, hp, h => readArray_at t.read (fun v => (t.dynamic, t.enc v)) lim v
      (fun x hx => Ty.read_at t x hp (h.2 x hx)) (fun x _ => Ty.enc_len t x hp) h.1
  | .tuple ts, v, hp, h => by
      have := readTuple_at ts.dynamic ts.read v (ts.items v) (Tys.items_static ts v)
        (Tys.read_at ts v hp.2 h)
      rw [← Tys.static_eq] at this
      exact this
theorem Tys.read_at : ∀ (ts : Tys) (v : ts.Val), ts.proper → ts.fits v →
    ReadsAll ts.read v (ts.items v)
  | .nil, _, _, _ => fun _ _ _ _ _ _ => rfl
  | .cons t ts, v, hp, h => readCons_at t.read ts.read v.1 v.2 (t.dynamic, t.enc v.1)
      (ts.items v.2) (Ty.read_at t v.1 hp.1 h.1) (Tys.read_at ts v.2 hp.2 h.2)
      (Ty.enc_len t v.1 hp.1)
end

/-- The arguments of a call are what the caller encoded. -/
theorem readArgs_eq (ts : Tys) (v : ts.Val) (hp : ts.proper) (h : ts.fits v) (selector : Nat)
    (rest : List Byte) (hl : (callData selector ts v ++ rest).length ≤ usizeMax) :
    readArgs ts (callData selector ts v ++ rest) = .ok v := by
  have h4 : (be 4 selector).length = 4 := be_length 4 selector
  have hdrop : (callData selector ts v ++ rest).drop 4 = layout (ts.items v) ++ rest := by
    rw [callData, List.append_assoc, List.drop_append, List.drop_of_length_le (by omega), h4]
    simp
  have hge := headsLen_ge (ts.items v) (Tys.items_len ts v hp)
  have hll := layout_length (ts.items v)
  have hc : (ts.items v).length = ts.count := Tys.items_count ts v
  have hlen : (callData selector ts v ++ rest).length
      = 4 + ((layout (ts.items v)).length + rest.length) := by
    rw [callData, List.append_assoc, List.length_append, h4, List.length_append]
  have ha : At (layout (ts.items v) ++ rest) 0
      (heads (headsLen (ts.items v)) (ts.items v) ++ tails (ts.items v)) := ⟨rest, rfl⟩
  have hb := ha.right
  rw [heads_length, Nat.zero_add] at hb
  simp only [readArgs, newSkipSelector, sliceFrom, expectArguments, Reader.new, bind_ok,
    ensure_ok, pure_ok]
  refine ⟨_, ⟨(), by omega, _, ⟨(), by omega, rfl⟩, rfl⟩, (), ?_, ?_⟩
  · show 0 + ts.count * 32 ≤ ((callData selector ts v ++ rest).drop 4).length
    rw [hdrop, List.length_append]
    omega
  · rw [hdrop]
    exact ⟨_, Tys.read_at ts v hp h _ 0 _ (by rw [List.length_append]; omega) ha.left hb, rfl⟩

end Verif.Abi
