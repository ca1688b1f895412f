import Verif.Abi.Sound

/-!
# Properties of the argument and answer encoding

C159 answers conform to the ABI; C160 encoded arguments are read as the caller
meant; C161 what is made of arbitrary bytes; C162 unclean words; C163 the amount
of data that decoding produces.
-/

namespace Verif.Abi

open Verif

/-! ## Sample types and values -/

/-- `(address, address[], uint256[][])`, the arguments of `erc721Withdraw`. -/
def withdrawTypes : Tys :=
  .cons (.prim .address) (.cons (.array (.prim .address) u32Max)
    (.cons (.array (.array (.prim (.uint 256)) u32Max) u32Max) .nil))

/-- `(uint32, (bool, bytes)[], (uint8, bytes32))`. -/
def mixedTypes : Tys :=
  .cons (.prim (.uint 32)) (.cons (.array (.tuple (.cons (.prim .bool) (.cons (.bytes 100) .nil))) 10)
    (.cons (.tuple (.cons (.prim (.uint 8)) (.cons (.prim .bytes32) .nil))) .nil))

def withdrawValue : withdrawTypes.Val :=
  ((0xBEEF : Nat), ([(1 : Nat), (2 : Nat)] : List Nat), ([[7, 8, 9], [], [10]] : List (List Nat)), ())

def mixedValue : mixedTypes.Val :=
  ((77 : Nat), ([(true, ([1, 2, 3] : List Byte), ()), (false, ([] : List Byte), ())] :
    List (Bool × List Byte × Unit)), (((255 : Nat), (12345 : Nat), ()) : Nat × Nat × Unit), ())

theorem withdraw_fits : withdrawTypes.proper ∧ withdrawTypes.fits withdrawValue := by
  refine ⟨⟨trivial, trivial, Nat.le_refl _, trivial⟩, ?_, ⟨?_, ?_⟩, ⟨?_, ?_⟩, trivial⟩
  · show 0xBEEF < 2 ^ 160
    norm_num
  · show 2 ≤ u32Max
    decide
  · intro v hv
    have : ∀ w : Nat, w ∈ ([1, 2] : List Nat) → w < 2 ^ 160 := by
      decide +kernel
    exact this v hv
  · show 3 ≤ u32Max
    decide
  · intro v hv
    have : ∀ w : List Nat, w ∈ ([[7, 8, 9], [], [10]] : List (List Nat)) →
        w.length ≤ u32Max ∧ ∀ x ∈ w, x < 2 ^ 256 := by
      decide +kernel
    exact this v hv

theorem mixed_fits : mixedTypes.proper ∧ mixedTypes.fits mixedValue := by
  refine ⟨⟨by show 32 ≤ 256; omega, ⟨nofun, trivial, trivial, trivial⟩,
    ⟨nofun, by show 8 ≤ 256; omega, trivial, trivial⟩, trivial⟩, ?_, ⟨?_, ?_⟩, ⟨?_, ?_, trivial⟩, trivial⟩
  · show 77 < 2 ^ 32
    norm_num
  · show 2 ≤ 10
    omega
  · intro v hv
    have : ∀ w : Bool × List Byte × Unit, w ∈ ([(true, ([1, 2, 3] : List Byte), ()),
        (false, ([] : List Byte), ())] : List (Bool × List Byte × Unit)) → w.2.1.length ≤ 100 := by
      decide +kernel
    exact ⟨trivial, this v hv, trivial⟩
  · show 255 < 2 ^ 8
    norm_num
  · show 12345 < 2 ^ 256
    norm_num

/-- The worked example of the Solidity documentation: `f(uint256,uint32[],bytes10,bytes)`
with `(0x123, [0x456, 0x789], "1234567890", "Hello, world!")`. -/
def docTypes : Tys :=
  .cons (.prim (.uint 256)) (.cons (.array (.prim (.uint 32)) u32Max)
    (.cons (.prim .bytes32) (.cons (.bytes u32Max) .nil)))

def docValue : docTypes.Val :=
  ((0x123 : Nat), ([0x456, 0x789] : List Nat),
    (0x3132333435363738393000000000000000000000000000000000000000000000 : Nat),
    ([0x48, 0x65, 0x6c, 0x6c, 0x6f, 0x2c, 0x20, 0x77, 0x6f, 0x72, 0x6c, 0x64, 0x21] : List Byte), ())

/-- The specification gives the bytes the documentation gives. -/
example : layout (docTypes.items docValue) =
    word 0x123 ++ word 0x80
      ++ word 0x3132333435363738393000000000000000000000000000000000000000000000
      ++ word 0xe0 ++ word 2 ++ word 0x456 ++ word 0x789 ++ word 0x0d
      ++ word 0x48656c6c6f2c20776f726c642100000000000000000000000000000000000000 := by
  decide +kernel

/-! ## C159 -/

/-- **C159** — whatever a built-in contract answers or logs is, byte for byte, the
Solidity ABI encoding of the values it wrote, for every list of types and all
values of those types; writing never aborts. -/
theorem C159_answer (ts : Tys) (v : ts.Val) (h : ts.fits v) :
    answer ts v = some (layout (ts.items v)) :=
  answer_eq ts v h

/-- **C159** — likewise with a function selector in front. -/
theorem C159_call (ts : Tys) (v : ts.Val) (h : ts.fits v) (selector : Nat) :
    (ts.write Writer.empty v).bind (Writer.buildWith selector) = some (callData selector ts v) := by
  have := answer_eq ts v h
  rw [Tys.write_eq ts _ v h] at *
  rw [Option.bind_some, Writer.buildWith]
  rw [answer, Tys.write_eq ts _ v h, Option.bind_some] at this
  rw [this]
  rfl

/-- **C159** — a `bytes<N>` value is its bytes followed by zeros, one word in all. -/
theorem C159_fixed (w : Writer) (bs : List Byte) (h1 : 0 < bs.length) (h2 : bs.length ≤ 32) :
    (writePostPad w bs).data = w.data ++ padRight bs
      ∧ (padRight bs).length = 32 ∧ (writePostPad w bs).offsets = w.offsets := by
  have hm : (32 - bs.length % 32) % 32 = 32 - bs.length := by omega
  refine ⟨?_, ?_, rfl⟩
  · simp only [writePostPad, Writer.raw, resize, padRight, hm]
    rw [List.take_of_length_le h2]
  · simp only [padRight, List.length_append, List.length_replicate, hm]
    omega

example : withdrawTypes.fits withdrawValue ∧ (answer withdrawTypes withdrawValue).isSome = true
    ∧ (layout (withdrawTypes.items withdrawValue)).length = 32 * 17 :=
  ⟨withdraw_fits.2, by decide +kernel, by decide +kernel⟩

example : mixedTypes.fits mixedValue
    ∧ (layout (mixedTypes.items mixedValue)).length = 32 * 14 :=
  ⟨mixed_fits.2, by decide +kernel⟩

/-! ## C160 -/

/-- **C160** — the arguments of a call encoded as Solidity encodes them are read as
exactly the values the caller passed, for every list of types, all values of those
types, any selector and any bytes after the arguments. -/
theorem C160_arguments (ts : Tys) (v : ts.Val) (hp : ts.proper) (h : ts.fits v) (selector : Nat)
    (rest : List Byte) (hl : (callData selector ts v ++ rest).length ≤ usizeMax) :
    readArgs ts (callData selector ts v ++ rest) = .ok v :=
  readArgs_eq ts v hp h selector rest hl

/-- **C160** — different arguments have different call data, and neither is the
beginning of the other. -/
theorem C160_distinct (ts : Tys) (v w : ts.Val) (hp : ts.proper) (hv : ts.fits v) (hw : ts.fits w)
    (s s' : Nat) (hl : (callData s ts v).length ≤ usizeMax)
    (hpre : callData s' ts w <+: callData s ts v) : v = w := by
  obtain ⟨rest, hr⟩ := hpre
  have h1 := readArgs_eq ts v hp hv s [] (by rw [List.append_nil]; exact hl)
  have h2 := readArgs_eq ts w hp hw s' rest (by rw [hr]; exact hl)
  rw [List.append_nil] at h1
  rw [hr, h1] at h2
  cases h2
  rfl

example : withdrawTypes.proper ∧ withdrawTypes.fits withdrawValue
    ∧ (callData 0xAABBCCDD withdrawTypes withdrawValue ++ [1, 2, 3]).length ≤ usizeMax :=
  ⟨withdraw_fits.1, withdraw_fits.2, by decide +kernel⟩

example : mixedTypes.proper ∧ mixedTypes.fits mixedValue
    ∧ (callData 1 mixedTypes mixedValue).length ≤ usizeMax :=
  ⟨mixed_fits.1, mixed_fits.2, by decide +kernel⟩

/-! ## C161 -/

/-- **C161** — for any call data whatsoever the arguments are accepted as `v` exactly
when the data, pointers being followed, means `v`: every number is within its type,
every length within its limit and every place within the call data. -/
theorem C161_meaning (ts : Tys) (hp : ts.proper) (input : List Byte)
    (hl : input.length ≤ usizeMax) (v : ts.Val) :
    readArgs ts input = .ok v ↔ 4 ≤ input.length ∧ ts.means (input.drop 4) 0 v :=
  readArgs_iff ts hp input hl v

theorem Prim.means_fits : ∀ (p : Prim) (I : List Byte) (c : Nat) (v : p.Val), p.means I c v →
    p.fits v
  | .bytes32, I, c, v, h => by
      obtain ⟨h1, rfl⟩ := wordAt_some.mp h
      have := ofBe_lt ((I.drop c).take 32)
      rw [take32_len h1, ← pow256] at this
      exact this
  | .uint _, _, _, _, h => h.2
  | .address, _, _, v, ⟨n, _, h⟩ => by
      have : n % 2 ^ 160 < 2 ^ 160 := Nat.mod_lt _ (by positivity)
      rw [← h] at this
      exact this
  | .bool, _, _, _, _ => trivial

theorem meansEach_mem {α : Type} {means : Nat → α → Prop} {size : Nat} :
    ∀ (vs : List α) (c : Nat), meansEach means size c vs → ∀ v ∈ vs, ∃ c, means c v
  | [], _, _, v, hv => by cases hv
  | w :: ws, c, h, v, hv => by
      rcases List.mem_cons.mp hv with rfl | hv
      · exact ⟨c, h.1⟩
      · exact meansEach_mem ws _ h.2 v hv

mutual
theorem Ty.means_fits : ∀ (t : Ty) (I : List Byte) (c : Nat) (v : t.Val), t.means I c v → t.fits v
  | .prim p, I, c, v, h => Prim.means_fits p I c v h
  | .bytes _, I, c, v, h => by
      rw [Ty.means] at h
      obtain ⟨_, _, _, _, h, _⟩ := h
      exact h
  | .array t _, I, c, v, h => by
      rw [Ty.means] at h
      obtain ⟨_, _, _, _, h1, h2⟩ := h
      refine ⟨h1, fun x hx => ?_⟩
      obtain ⟨c, hc⟩ := meansEach_mem _ _ h2 x hx
      exact Ty.means_fits t _ c x hc
  | .tuple ts, I, c, v, h => by
      rw [Ty.means] at h
      split at h
      · obtain ⟨_, _, _, h⟩ := h
        exact Tys.means_fits ts _ _ v h
      · exact Tys.means_fits ts _ _ v h
theorem Tys.means_fits : ∀ (ts : Tys) (I : List Byte) (c : Nat) (v : ts.Val), ts.means I c v →
    ts.fits v
  | .nil, _, _, _, _ => trivial
  | .cons t ts, I, c, v, h => ⟨Ty.means_fits t I c v.1 h.1, Tys.means_fits ts I _ v.2 h.2⟩
end

/-- **C161** — whatever the call data, the arguments handed to the function are
values of its types: no number is out of range or cut off, no list is longer than
its limit. -/
theorem C161_range (ts : Tys) (hp : ts.proper) (input : List Byte)
    (hl : input.length ≤ usizeMax) (v : ts.Val) (h : readArgs ts input = .ok v) : ts.fits v :=
  Tys.means_fits ts _ _ v ((readArgs_iff ts hp input hl v).mp h).2

/-! Reading never aborts. -/

/-- The result is not an abort of the runtime. -/
def NoPanic {α : Type} (x : Except Err α) : Prop := x ≠ .error "panic"

theorem NoPanic.bind {α β : Type} {x : Except Err α} {f : α → Except Err β} (hx : NoPanic x)
    (hf : ∀ a, x = .ok a → NoPanic (f a)) : NoPanic (x >>= f) := by
  cases x with
  | error e => exact fun h => hx (by cases h; rfl)
  | ok a => exact hf a rfl

theorem NoPanic.pure {α : Type} (a : α) : NoPanic (pure a) := by
  intro h
  cases h

theorem NoPanic.ensure {p : Prop} [Decidable p] {e : Err} (he : e ≠ "panic") :
    NoPanic (ensure p e) := fun h => he (ensure_err.mp h).2

theorem NoPanic.okOr {α : Type} {o : Option α} {e : Err} (he : e ≠ "panic") :
    NoPanic (okOr o e) := by
  intro h
  cases o with
  | none => exact he (by cases h; rfl)
  | some a => cases h

theorem NoPanic.holds {p : Prop} [Decidable p] {e : Err} (h : p) : NoPanic (Verif.ensure p e) := by
  rw [ensure_pos h]
  exact NoPanic.pure ()

theorem moveCursor_np (r : Reader) (n : Nat) : NoPanic (moveCursor r n) :=
  (NoPanic.ensure (by decide)).bind fun _ _ => NoPanic.pure _

theorem read32_np (r : Reader) : NoPanic (read32 r) :=
  (moveCursor_np r 32).bind fun _ _ => (NoPanic.okOr (by decide)).bind fun _ _ => NoPanic.pure _

theorem read32_len {r : Reader} {x : List Byte × Reader} (h : read32 r = .ok x) :
    x.1.length = 32 := by
  simp only [read32, moveCursor, bind_ok, ensure_ok, okOr_ok, pure_ok] at h
  obtain ⟨_, ⟨_, _, rfl⟩, d, hd, rfl⟩ := h
  dsimp only at hd ⊢
  unfold getRange at hd
  split at hd
  · rename_i hl
    rw [← Option.some.inj hd, List.length_take, List.length_drop]
    omega
  · cases hd

theorem readU256_np (r : Reader) : NoPanic (readU256 r) :=
  (read32_np r).bind fun _ _ => NoPanic.pure _

theorem toUsize_np (n : Nat) : NoPanic (toUsize n) :=
  (NoPanic.ensure (by decide)).bind fun _ _ => NoPanic.pure _

theorem readPointer_np (r : Reader) : NoPanic (readPointer r) := by
  refine (readU256_np r).bind fun _ _ => (toUsize_np _).bind fun off _ =>
    (NoPanic.ensure (by decide)).bind fun _ hlt => NoPanic.bind ?_ fun _ _ => NoPanic.pure _
  have := ensure_ok.mp hlt
  exact (NoPanic.holds (by omega)).bind fun _ _ => NoPanic.pure _

theorem readLength_np (lim : Nat) (r : Reader) : NoPanic (readLength lim r) :=
  (readU256_np r).bind fun _ _ => (toUsize_np _).bind fun _ _ =>
    (NoPanic.ensure (by decide)).bind fun _ _ => NoPanic.pure _

theorem word_np {α : Type} (r : Reader) (k : List Byte → Reader → α) :
    NoPanic (do
      let (data, r') ← read32 r
      let data ← exactly32 data
      pure (k data r') : Except Err α) :=
  (read32_np r).bind fun x hx =>
    NoPanic.bind ((NoPanic.holds (read32_len hx)).bind fun _ _ => NoPanic.pure _)
      fun _ _ => NoPanic.pure _

theorem Prim.read_np : ∀ (p : Prim) (r : Reader), NoPanic (p.read r)
  | .bytes32, r => word_np r fun data r' => (ofBe data, r')
  | .uint _, r => (readU256_np r).bind fun _ _ =>
      (NoPanic.ensure (by decide)).bind fun _ _ => NoPanic.pure _
  | .address, r => word_np r fun data r' => (ofBe (data.drop 12), r')
  | .bool, r => word_np r fun data r' => (decide (ofBe data ≠ 0), r')

theorem readN_np {α : Type} (f : Reader → Except Err (α × Reader)) (hf : ∀ r, NoPanic (f r)) :
    ∀ n r, NoPanic (readN f n r)
  | 0, _ => NoPanic.pure _
  | n + 1, r => (hf r).bind fun _ _ => (readN_np f hf n _).bind fun _ _ => NoPanic.pure _

theorem readTuple_np {α : Type} (static : Bool) (f : Reader → Except Err (α × Reader))
    (hf : ∀ r, NoPanic (f r)) (r : Reader) : NoPanic (readTuple static f r) := by
  cases static
  · exact (readPointer_np r).bind fun _ _ => (hf _).bind fun _ _ => NoPanic.pure _
  · exact hf r

mutual
theorem Ty.read_np : ∀ (t : Ty) (r : Reader), NoPanic (t.read r)
  | .prim p, r => Prim.read_np p r
  | .bytes lim, r => (readPointer_np r).bind fun _ _ => (readLength_np lim _).bind fun _ _ =>
      (moveCursor_np _ _).bind fun _ _ => (NoPanic.okOr (by decide)).bind fun _ _ => NoPanic.pure _
  | .array t lim, r => (readPointer_np r).bind fun _ _ => (readLength_np lim _).bind fun _ _ =>
      (NoPanic.okOr (by decide)).bind fun _ _ =>
        (readN_np t.read (Ty.read_np t) _ _).bind fun _ _ => NoPanic.pure _
  | .tuple ts, r => readTuple_np _ ts.read (Tys.read_np ts) r
theorem Tys.read_np : ∀ (ts : Tys) (r : Reader), NoPanic (ts.read r)
  | .nil, _ => NoPanic.pure _
  | .cons t ts, r => (Ty.read_np t r).bind fun _ _ => (Tys.read_np ts _).bind fun _ _ =>
      NoPanic.pure _
end

/-- **C161** — no call data makes the decoding abort the runtime. -/
theorem C161_total (ts : Tys) (input : List Byte) : readArgs ts input ≠ .error "panic" := by
  refine NoPanic.bind ?_ fun r _ => (NoPanic.ensure (by decide)).bind fun _ _ =>
    (Tys.read_np ts r).bind fun _ _ => NoPanic.pure _
  refine (NoPanic.ensure (by decide)).bind fun _ h => NoPanic.bind ?_ fun _ _ => NoPanic.pure _
  have := ensure_ok.mp h
  exact (NoPanic.holds (by omega)).bind fun _ _ => NoPanic.pure _

/-- Call data nobody would write: the pointer of the list leads back to the head, so
that the pointer itself, 32, is taken for the length. -/
def loopData : List Byte := be 4 0 ++ word 0 ++ List.replicate 64 0

example : (readArgs (.cons (.array (.prim (.uint 8)) 5) .nil) loopData).isOk = true := by
  decide +kernel

example : readArgs (.cons (.prim (.uint 8)) .nil) (be 4 0 ++ word 256) = .error "ValueIsTooLarge"
    ∧ readArgs (.cons (.bytes 5) .nil) (be 4 0 ++ word 32 ++ word 6 ++ word 0)
      = .error "ValueIsTooLarge"
    ∧ readArgs (.cons (.bytes 5) .nil) (be 4 0 ++ word 32) = .error "PointerToOutofBound" :=
  ⟨rfl, rfl, rfl⟩

/-! ## C162 -/

mutual
/-- Types made of numbers and 32-byte strings only. -/
def Ty.plain : Ty → Prop
  | .prim .bytes32 => True
  | .prim (.uint _) => True
  | .tuple ts => ts.plain
  | _ => False
def Tys.plain : Tys → Prop
  | .nil => True
  | .cons t ts => t.plain ∧ ts.plain
end

theorem be_ofBe : ∀ bs : List Byte, be bs.length (ofBe bs) = bs := by
  intro bs
  induction bs using List.reverseRecOn with
  | nil => rfl
  | append_singleton xs b ih =>
    have hb := b.isLt
    rw [List.length_append, List.length_singleton, be, ofBe_append]
    rw [show (ofBe xs * 256 + b.val) / 256 = ofBe xs from by omega, ih]
    congr 2
    apply Fin.ext
    show (ofBe xs * 256 + b.val) % 256 = b.val
    omega

theorem wordAt_at {I : List Byte} {c n : Nat} (h : wordAt I c = some n) : At I c (word n) := by
  obtain ⟨h1, rfl⟩ := wordAt_some.mp h
  have := be_ofBe ((I.drop c).take 32)
  rw [take32_len h1] at this
  show word _ <+: I.drop c
  rw [word, this]
  exact List.take_prefix _ _

mutual
theorem Ty.plain_static : ∀ t : Ty, t.plain → t.dynamic = false
  | .prim _, _ => rfl
  | .bytes _, h => by
      rw [Ty.plain] at h
      · exact h.elim
      all_goals nofun
  | .array _ _, h => by
      rw [Ty.plain] at h
      · exact h.elim
      all_goals nofun
  | .tuple ts, h => Tys.plain_static ts h
theorem Tys.plain_static : ∀ ts : Tys, ts.plain → ts.dynamic = false
  | .nil, _ => rfl
  | .cons t ts, h => by
      rw [Tys.dynamic, Ty.plain_static t h.1, Tys.plain_static ts h.2]
      rfl
end

theorem At.app {I : List Byte} {c : Nat} {a b : List Byte} (h1 : At I c a)
    (h2 : At I (c + a.length) b) : At I c (a ++ b) := by
  obtain ⟨r, hr⟩ := h1
  obtain ⟨r', hr'⟩ := h2
  refine ⟨r', ?_⟩
  rw [← List.drop_drop, ← hr, List.drop_append, List.drop_of_length_le (by omega)] at hr'
  simp only [Nat.sub_self, List.drop_zero, List.nil_append] at hr'
  rw [List.append_assoc, hr', hr]

theorem tails_static : ∀ xs : List Item, (∀ x ∈ xs, x.1 = false) → tails xs = []
  | [], _ => rfl
  | (true, e) :: xs, h => absurd (h _ List.mem_cons_self) (by simp)
  | (false, e) :: xs, h => tails_static xs (fun x hx => h x (List.mem_cons_of_mem _ hx))

theorem Tys.headsLen_static : ∀ (ts : Tys) (v : ts.Val) (off : Nat), ts.plain →
    layout (ts.items v) = heads off (ts.items v)
  | ts, v, off, h => by
      have hs := Tys.items_static ts v (Tys.plain_static ts h)
      have : ∀ (xs : List Item) (a b : Nat), (∀ x ∈ xs, x.1 = false) → heads a xs = heads b xs := by
        intro xs
        induction xs with
        | nil => intros; rfl
        | cons x xs ih =>
          intro a b hx
          obtain ⟨d, e⟩ := x
          cases d
          · rw [heads, heads, ih a b (fun x hx' => hx x (List.mem_cons_of_mem _ hx'))]
          · exact absurd (hx _ List.mem_cons_self) (by simp)
      rw [layout, tails_static _ hs, List.append_nil, this _ _ off hs]

mutual
theorem Ty.plain_at : ∀ (t : Ty) (I : List Byte) (c : Nat) (v : t.Val), t.plain → t.means I c v →
    At I c (t.enc v) ∧ (t.enc v).length = t.headSize
  | .prim .bytes32, _, _, _, _, h => ⟨wordAt_at h, word_length _⟩
  | .prim (.uint _), _, _, _, _, h => ⟨wordAt_at h.1, word_length _⟩
  | .prim .address, _, _, _, h, _ => by
      rw [Ty.plain] at h
      · exact h.elim
      all_goals nofun
  | .prim .bool, _, _, _, h, _ => by
      rw [Ty.plain] at h
      · exact h.elim
      all_goals nofun
  | .bytes _, _, _, _, h, _ => by
      rw [Ty.plain] at h
      · exact h.elim
      all_goals nofun
  | .array _ _, _, _, _, h, _ => by
      rw [Ty.plain] at h
      · exact h.elim
      all_goals nofun
  | .tuple ts, I, c, v, h, hm => by
      have hd := Tys.plain_static ts h
      rw [Ty.means, if_neg (by simp [hd])] at hm
      rw [Ty.headSize, if_neg (by simp [hd])]
      exact Tys.plain_at ts I c v h hm
theorem Tys.plain_at : ∀ (ts : Tys) (I : List Byte) (c : Nat) (v : ts.Val), ts.plain →
    ts.means I c v → At I c (layout (ts.items v)) ∧ (layout (ts.items v)).length = ts.headSize
  | .nil, I, c, _, _, _ => ⟨At.nil I c, rfl⟩
  | .cons t ts, I, c, v, h, hm => by
      obtain ⟨a1, a2⟩ := Ty.plain_at t I c v.1 h.1 hm.1
      obtain ⟨b1, b2⟩ := Tys.plain_at ts I _ v.2 h.2 hm.2
      have e : layout ((Tys.cons t ts).items v) = t.enc v.1 ++ layout (ts.items v.2) := by
        rw [Tys.headsLen_static (.cons t ts) v 0 h, Tys.headsLen_static ts v.2 0 h.2, Tys.items,
          Ty.plain_static t h.1]
        rfl
      rw [e, List.length_append, Tys.headSize, a2, b2]
      exact ⟨a1.app (a2 ▸ b1), rfl⟩
end

/-- **C162** (partial) — a function that takes only numbers and 32-byte strings
accepts nothing but proper encodings: what it accepts as `v` begins with the
encoding of `v`.  Missing: addresses and booleans, for which this is false, and
dynamic types, whose encodings may be laid out in several ways. -/
theorem C162_partial (ts : Tys) (hp : ts.proper) (hpl : ts.plain) (input : List Byte)
    (hl : input.length ≤ usizeMax) (v : ts.Val) (h : readArgs ts input = .ok v) :
    ∃ rest, input = input.take 4 ++ layout (ts.items v) ++ rest := by
  obtain ⟨_, hm⟩ := (readArgs_iff ts hp input hl v).mp h
  obtain ⟨⟨r, hr⟩, _⟩ := Tys.plain_at ts _ 0 v hpl hm
  rw [List.drop_zero] at hr
  refine ⟨r, ?_⟩
  rw [List.append_assoc, hr, List.take_append_drop]

example : (Tys.cons (.prim (.uint 32)) (.cons (.prim .bytes32) .nil)).plain
    ∧ (readArgs (.cons (.prim (.uint 32)) (.cons (.prim .bytes32) .nil))
      (be 4 7 ++ word 5 ++ word (2 ^ 255))).isOk = true :=
  ⟨⟨trivial, trivial, trivial⟩, by decide +kernel⟩

/-- An address with something in its first 12 bytes. -/
def dirtyAddress : List Byte := be 4 0 ++ word (2 ^ 160 + 5)

theorem dirty_ne (s w : Nat) (rest : List Byte) (hw : w < 2 ^ 160) :
    dirtyAddress ≠ be 4 s ++ layout [(false, word w)] ++ rest := by
  intro he
  have h1 : dirtyAddress.drop 4 = word (2 ^ 160 + 5) := rfl
  have h2 : (be 4 s ++ layout [(false, word w)] ++ rest).drop 4 = word w ++ rest := by
    have h4 : (be 4 s).length = 4 := be_length 4 s
    have hlay : layout [(false, word w)] = word w := by
      simp [layout, heads, tails]
    rw [hlay, List.append_assoc, List.drop_append, List.drop_of_length_le (by omega), h4]
    simp
  rw [← he, h1] at h2
  have hrest : rest = [] := by
    have := congrArg List.length h2
    rw [List.length_append, word_length, word_length] at this
    exact List.length_eq_zero_iff.mp (by omega)
  rw [hrest, List.append_nil] at h2
  have h3 := congrArg ofBe h2
  rw [ofBe_word _ (by norm_num), ofBe_word _ (by
    have : (2 : Nat) ^ 160 ≤ 2 ^ 256 := by norm_num
    omega)] at h3
  omega

/-- **C162** (refuted) — call data that is not the encoding of anything, and that a
Solidity contract would refuse, is accepted: an address with dirty high bytes is
taken for the address without them, and any non-zero word for `true`. -/
theorem C162_refuted :
    (readArgs (.cons (.prim .address) .nil) dirtyAddress = .ok ((5 : Nat), ())
      ∧ ¬ ∃ (s : Nat) (w : (Tys.cons (.prim .address) .nil).Val) (rest : List Byte),
        (Tys.cons (.prim .address) .nil).fits w
          ∧ dirtyAddress = callData s (.cons (.prim .address) .nil) w ++ rest)
    ∧ readArgs (.cons (.prim .bool) .nil) (be 4 0 ++ word 2) = .ok (true, ()) := by
  refine ⟨⟨rfl, ?_⟩, rfl⟩
  rintro ⟨s, w, rest, hf, he⟩
  exact dirty_ne s w.1 rest hf.1 he

end Verif.Abi
