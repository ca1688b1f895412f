import Verif.Abi.Spec

/-! # The writer produces the ABI encoding -/

namespace Verif.Abi

open Verif

theorem be_length : ∀ k n, (be k n).length = k
  | 0, _ => rfl
  | k + 1, n => by simp [be, be_length k]

theorem word_length (n : Nat) : (word n).length = 32 := be_length 32 n

theorem be_zero : ∀ k, be k 0 = List.replicate k 0
  | 0 => rfl
  | k + 1 => by
      rw [be, Nat.zero_div, be_zero k, List.replicate_succ']
      rfl

theorem be_pad (j : Nat) : ∀ k n, n < 256 ^ k → be (j + k) n = List.replicate j 0 ++ be k n
  | 0, n, h => by
      obtain rfl : n = 0 := by simpa using h
      simp [be_zero, be]
  | k + 1, n, h => by
      have : n / 256 < 256 ^ k := by
        rw [Nat.div_lt_iff_lt_mul (by omega)]
        rw [Nat.pow_succ] at h
        omega
      show be (j + k + 1) n = _
      rw [be, be_pad j k _ this, be, List.append_assoc]

/-! ## Types -/

mutual
theorem Ty.static_eq : ∀ t : Ty, t.hasStaticSize = !t.dynamic
  | .prim _ => rfl
  | .bytes _ => rfl
  | .array _ _ => rfl
  | .tuple ts => by
      rw [Ty.hasStaticSize, Ty.dynamic, Tys.static_eq ts]
theorem Tys.static_eq : ∀ ts : Tys, ts.hasStaticSize = !ts.dynamic
  | .nil => rfl
  | .cons t ts => by
      rw [Tys.hasStaticSize, Tys.dynamic, Ty.static_eq t, Tys.static_eq ts, Bool.not_or]
end

theorem Tys.items_static : ∀ (ts : Tys) (v : ts.Val), ts.dynamic = false →
    ∀ x ∈ ts.items v, x.1 = false
  | .nil, _, _, x, hx => by simp [Tys.items] at hx
  | .cons t ts, v, h, x, hx => by
      rw [Tys.dynamic, Bool.or_eq_false_iff] at h
      rw [Tys.items, List.mem_cons] at hx
      rcases hx with rfl | hx
      · exact h.1
      · exact Tys.items_static ts v.2 h.2 x hx

/-! ## What writing appends -/

/-- What writing one component does to a writer. -/
def pushS (s : Nat) (w : Writer) (x : Item) : Writer :=
  if x.1 then
    { data := w.data ++ List.replicate 32 255
      offsets := w.offsets ++ [⟨w.data.length, x.2, s⟩] }
  else w.raw x.2

/-- The heads before the offsets are known. -/
def dummies : List Item → List Byte
  | [] => []
  | (true, _) :: xs => List.replicate 32 255 ++ dummies xs
  | (false, e) :: xs => e ++ dummies xs

/-- The offsets to fill in. -/
def offsOf (s : Nat) : Nat → List Item → List Datum
  | _, [] => []
  | p, (true, e) :: xs => ⟨p, e, s⟩ :: offsOf s (p + 32) xs
  | p, (false, e) :: xs => offsOf s (p + e.length) xs

theorem foldl_pushS (s : Nat) : ∀ (xs : List Item) (w : Writer),
    xs.foldl (pushS s) w = ⟨w.data ++ dummies xs, w.offsets ++ offsOf s w.data.length xs⟩
  | [], w => by simp [dummies, offsOf]
  | (true, e) :: xs, w => by
      rw [List.foldl_cons, foldl_pushS s xs]
      simp [pushS, dummies, offsOf]
  | (false, e) :: xs, w => by
      rw [List.foldl_cons, foldl_pushS s xs]
      simp [pushS, dummies, offsOf, Writer.raw]

theorem headsLen_cons (x : Item) (xs : List Item) : headsLen (x :: xs) = headLen x + headsLen xs := by
  simp [headsLen]

theorem dummies_length : ∀ xs : List Item, (dummies xs).length = headsLen xs
  | [] => rfl
  | (true, e) :: xs => by
      rw [headsLen_cons, ← dummies_length xs, dummies, List.length_append, List.length_replicate]
      rfl
  | (false, e) :: xs => by
      rw [headsLen_cons, ← dummies_length xs]
      simp [dummies, headLen]

theorem bake_heads (s : Nat) : ∀ (xs : List Item) (A B : List Byte), s ≤ A.length →
    bake (A ++ (dummies xs ++ B)) (offsOf s A.length xs)
      = some (A ++ (heads (A.length + headsLen xs + B.length - s) xs ++ (B ++ tails xs)))
  | [], A, B, _ => by simp [dummies, offsOf, heads, tails, bake]
  | (false, e) :: xs, A, B, hs => by
      have := bake_heads s xs (A ++ e) B (by simp; omega)
      simp only [dummies, offsOf, heads, tails, headsLen_cons, headLen]
      simp only [List.length_append, List.append_assoc] at this
      simp only [List.append_assoc, Bool.false_eq_true, if_false]
      rw [this]
      congr 6
      omega
  | (true, e) :: xs, A, B, hs => by
      have hlen : (A ++ (dummies ((true, e) :: xs) ++ B)).length
          = A.length + (32 + headsLen xs) + B.length := by
        simp [dummies, dummies_length]
        omega
      have := bake_heads s xs
        (A ++ word (A.length + (32 + headsLen xs) + B.length - s)) (B ++ e)
        (by simp; omega)
      simp only [offsOf, bake]
      rw [bakeOne, if_pos]
      · dsimp only
        rw [Option.bind_some, hlen]
        have h1 : (A ++ (dummies ((true, e) :: xs) ++ B)).take A.length = A := by simp
        have h2 : (A ++ (dummies ((true, e) :: xs) ++ B)).drop (A.length + 32)
            = dummies xs ++ B := by
          rw [List.drop_append, List.drop_of_length_le (by omega)]
          rw [show A.length + 32 - A.length = 32 from by omega]
          simp only [dummies, List.append_assoc, List.nil_append]
          rw [List.drop_append, List.drop_of_length_le (by simp)]
          simp
        rw [h1, h2]
        simp only [heads, tails, headsLen_cons, headLen, if_true]
        simp only [List.length_append, List.append_assoc, word_length] at this
        simp only [List.append_assoc]
        rw [show be 32 (A.length + (32 + headsLen xs) + B.length - s)
            = word (A.length + (32 + headsLen xs) + B.length - s) from rfl, this]
        congr 5
        omega
      · dsimp only
        rw [hlen]
        omega

/-- Building a writer that wrote these components after `pre`. -/
theorem build_push (pre : List Byte) (xs : List Item) :
    (xs.foldl (pushS pre.length) ⟨pre, []⟩).build = some (pre ++ layout xs) := by
  rw [foldl_pushS, Writer.build]
  have := bake_heads pre.length xs pre [] (Nat.le_refl _)
  simp only [List.append_nil, List.nil_append, List.length_nil, Nat.add_zero] at this
  simp only [List.nil_append]
  rw [this, Nat.add_sub_cancel_left, layout]

theorem foldl_static (s : Nat) : ∀ (xs : List Item) (w : Writer) (off : Nat),
    (∀ x ∈ xs, x.1 = false) → xs.foldl (pushS s) w = w.raw (heads off xs ++ tails xs)
  | [], w, _, _ => by simp [heads, tails, Writer.raw]
  | (true, e) :: xs, w, _, h => absurd (h _ List.mem_cons_self) (by simp)
  | (false, e) :: xs, w, off, h => by
      rw [List.foldl_cons, foldl_static s xs _ off (fun x hx => h x (List.mem_cons_of_mem _ hx))]
      simp [pushS, heads, tails, Writer.raw]

theorem pad_eq (bs : List Byte) : resize bs (paddedSize bs.length) = padRight bs := by
  have h1 : bs.length ≤ paddedSize bs.length := by
    unfold paddedSize
    split <;> omega
  have h2 : paddedSize bs.length - bs.length = (32 - bs.length % 32) % 32 := by
    unfold paddedSize
    split <;> omega
  rw [resize, padRight, h2, List.take_of_length_le h1]

theorem writeBytes_eq (w : Writer) (bs : List Byte) :
    writeBytes w bs = some (w.pointer (word bs.length ++ padRight bs)) := by
  simp [writeBytes, Writer.empty, Writer.raw, Writer.build, bake, pad_eq, word]

theorem pointer_eq (w : Writer) (e : List Byte) : w.pointer e = pushS 0 w (true, e) := rfl

theorem appendItem_eq (inner : Writer) (x : Item) :
    appendItem inner (pushS 0 Writer.empty x) = pushS 32 inner x := by
  obtain ⟨d, e⟩ := x
  cases d <;> simp [appendItem, pushS, Writer.empty, Writer.raw]

theorem writeItems_eq {α : Type} (f : Writer → α → Option Writer) (g : α → Item) :
    ∀ (vs : List α) (w : Writer), (∀ v ∈ vs, ∀ w, f w v = some (pushS 0 w (g v))) →
      writeItems f w vs = some ((vs.map g).foldl (pushS 32) w)
  | [], w, _ => rfl
  | v :: vs, w, h => by
      rw [writeItems, h v List.mem_cons_self, Option.bind_some, appendItem_eq,
        writeItems_eq f g vs _ (fun v hv => h v (List.mem_cons_of_mem _ hv))]
      rfl

theorem writeArray_eq {α : Type} (f : Writer → α → Option Writer) (g : α → Item)
    (vs : List α) (w : Writer) (h : ∀ v ∈ vs, ∀ w, f w v = some (pushS 0 w (g v))) :
    writeArray f w vs = some (w.pointer (word vs.length ++ layout (vs.map g))) := by
  have hb := build_push (word vs.length) (vs.map g)
  rw [word_length] at hb
  have he : Writer.empty.raw (be 32 vs.length) = ⟨word vs.length, []⟩ := by
    simp [Writer.raw, Writer.empty, word]
  rw [writeArray, he, writeItems_eq f g vs _ h, Option.bind_some, hb]
  rfl

theorem address_write (w : Writer) (v : Nat) (h : v < 2 ^ 160) :
    w.raw (List.replicate 12 0 ++ be 20 v) = w.raw (be (12 + 20) v) := by
  have : (2 : Nat) ^ 160 = 256 ^ 20 := by norm_num
  rw [be_pad 12 20 v (this ▸ h)]

theorem bool_write (w : Writer) (b : Bool) :
    w.raw (List.replicate 31 0 ++ [bif b then 1 else 0]) = w.raw (word (bif b then 1 else 0)) := by
  cases b <;> rfl

theorem Prim.write_eq : ∀ (p : Prim) (w : Writer) (v : p.Val), p.fits v →
    p.write w v = pushS 0 w (false, p.enc v)
  | .bytes32, _, _, _ => rfl
  | .uint _, _, _, _ => rfl
  | .address, w, v, h => address_write w v h
  | .bool, w, v, _ => bool_write w v

theorem writeTuple_eq {α : Type} (d : Bool) (f : Writer → α → Option Writer)
    (g : α → List Item) (w : Writer) (v : α)
    (hf : ∀ w, f w v = some ((g v).foldl (pushS 0) w))
    (hd : d = false → ∀ x ∈ g v, x.1 = false) :
    writeTuple (!d) f w v = some (pushS 0 w (d, layout (g v))) := by
  cases d
  · rw [writeTuple, Bool.not_false, if_pos rfl, hf, foldl_static 0 _ _ (headsLen (g v)) (hd rfl)]
    rfl
  · have := build_push [] (g v)
    rw [List.length_nil, List.nil_append] at this
    rw [writeTuple, Bool.not_true, if_neg (by simp), hf, Option.bind_some,
      show Writer.empty = ⟨[], []⟩ from rfl, this]
    rfl

mutual
theorem Ty.write_eq : ∀ (t : Ty) (w : Writer) (v : t.Val), t.fits v →
    t.write w v = some (pushS 0 w (t.dynamic, t.enc v))
  | .prim p, w, v, h => congrArg some (Prim.write_eq p w v h)
  | .bytes _, w, v, _ => writeBytes_eq w v
  | .array t _, w, v, h => writeArray_eq t.write (fun v => (t.dynamic, t.enc v)) v w
      (fun x hx w => Ty.write_eq t w x (h.2 x hx))
  | .tuple ts, w, v, h => by
      have := writeTuple_eq ts.dynamic ts.write ts.items w v
        (fun w => Tys.write_eq ts w v h) (Tys.items_static ts v)
      rw [← Tys.static_eq] at this
      exact this
theorem Tys.write_eq : ∀ (ts : Tys) (w : Writer) (v : ts.Val), ts.fits v →
    ts.write w v = some ((ts.items v).foldl (pushS 0) w)
  | .nil, _, _, _ => rfl
  | .cons t ts, w, v, h => by
      have h1 := Ty.write_eq t w v.1 h.1
      have h2 := Tys.write_eq ts (pushS 0 w (t.dynamic, t.enc v.1)) v.2 h.2
      show (t.write w v.1).bind (fun w' => ts.write w' v.2) = _
      rw [h1, Option.bind_some, h2]
      rfl
end

/-- What the precompiles answer is the ABI encoding. -/
theorem answer_eq (ts : Tys) (v : ts.Val) (h : ts.fits v) :
    answer ts v = some (layout (ts.items v)) := by
  rw [answer, Tys.write_eq ts _ v h, Option.bind_some]
  have := build_push [] (ts.items v)
  rw [List.length_nil, List.nil_append] at this
  exact this

end Verif.Abi
