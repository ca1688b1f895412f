import Verif.Abi.Props

/-!
# C163: how much data decoding produces

Arguments are decoded before any gas is charged for what they contain
(evm-precompiles/peg/src/lib.rs 174-215: only the cost of the logs is recorded
before `read_args!`, and the numbers of collections and serials are checked
after it).
-/

namespace Verif.Abi

open Verif

mutual
/-- The number of words and bytes a value consists of. -/
def Ty.weight : (t : Ty) → t.Val → Nat
  | .prim _ => fun _ => 1
  | .bytes _ => fun bs : List Byte => bs.length
  | .array t _ => fun vs : List t.Val => (vs.map t.weight).sum
  | .tuple ts => ts.weight
def Tys.weight : (ts : Tys) → ts.Val → Nat
  | .nil => fun _ => 0
  | .cons t ts => fun v => t.weight v.1 + ts.weight v.2
end

mutual
/-- No list has items that are themselves of variable size. -/
def Ty.flat : Ty → Prop
  | .prim _ => True
  | .bytes _ => True
  | .array t _ => t.dynamic = false
  | .tuple ts => ts.flat
def Tys.flat : Tys → Prop
  | .nil => True
  | .cons t ts => t.flat ∧ ts.flat
end

mutual
/-- The number of words, byte strings and lists a signature mentions. -/
def Ty.leaves : Ty → Nat
  | .prim _ => 1
  | .bytes _ => 1
  | .array _ _ => 1
  | .tuple ts => ts.leaves
def Tys.leaves : Tys → Nat
  | .nil => 0
  | .cons t ts => t.leaves + ts.leaves
end

mutual
theorem Ty.static_weight : ∀ (t : Ty) (v : t.Val), t.dynamic = false → t.weight v ≤ t.headSize
  | .prim _, _, _ => by
      show 1 ≤ 32
      omega
  | .bytes _, _, h => by cases h
  | .array _ _, _, h => by cases h
  | .tuple ts, v, h => by
      have h' : ts.dynamic = false := h
      rw [Ty.headSize, h', if_neg (by simp)]
      exact Tys.static_weight ts v h'
theorem Tys.static_weight : ∀ (ts : Tys) (v : ts.Val), ts.dynamic = false →
    ts.weight v ≤ ts.headSize
  | .nil, _, _ => Nat.le_refl 0
  | .cons t ts, v, h => by
      rw [Tys.dynamic, Bool.or_eq_false_iff] at h
      exact Nat.add_le_add (Ty.static_weight t v.1 h.1) (Tys.static_weight ts v.2 h.2)
end

theorem sum_weight {α : Type} (w : α → Nat) (s : Nat) : ∀ vs : List α, (∀ v ∈ vs, w v ≤ s) →
    (vs.map w).sum ≤ vs.length * s
  | [], _ => by simp
  | v :: vs, h => by
      have h1 := h v List.mem_cons_self
      have h2 := sum_weight w s vs (fun x hx => h x (List.mem_cons_of_mem _ hx))
      rw [List.map_cons, List.sum_cons, List.length_cons, Nat.succ_mul]
      omega

mutual
theorem Ty.flat_weight : ∀ (t : Ty) (I : List Byte) (c L : Nat) (v : t.Val), t.proper → t.flat →
    I.length ≤ L → t.means I c v → t.weight v ≤ t.leaves * L
  | .prim p, I, c, L, v, _, _, hL, h => by
      have := Prim.means_len p I c v h
      show 1 ≤ 1 * L
      omega
  | .bytes _, I, c, L, v, _, _, hL, h => by
      rw [Ty.means] at h
      obtain ⟨off, _, _, _, _, hb⟩ := h
      have := List.IsPrefix.length_le hb
      rw [List.length_drop, List.length_drop] at this
      show List.length (α := Byte) v ≤ 1 * L
      omega
  | .array t _, I, c, L, v, hp, hf, hL, h => by
      rw [Ty.means] at h
      obtain ⟨off, _, _, _, _, hm⟩ := h
      have h1 := meansEach_len (L := ((I.drop off).drop 32).length)
        (fun c x => Ty.means_len t _ c x hp) v 0 (Nat.zero_le _) hm
      have h2 := sum_weight t.weight t.headSize v (fun x _ => Ty.static_weight t x hf)
      rw [List.length_drop, List.length_drop] at h1
      show (List.map t.weight v).sum ≤ 1 * L
      omega
  | .tuple ts, I, c, L, v, hp, hf, hL, h => by
      have h' : if ts.dynamic then Points I c fun J => ts.means J 0 v else ts.means I c v := h
      show ts.weight v ≤ ts.leaves * L
      split at h'
      · obtain ⟨off, _, _, hm⟩ := h'
        exact Tys.flat_weight ts _ _ L v hp.2 hf (by rw [List.length_drop]; omega) hm
      · exact Tys.flat_weight ts _ _ L v hp.2 hf hL h'
theorem Tys.flat_weight : ∀ (ts : Tys) (I : List Byte) (c L : Nat) (v : ts.Val), ts.proper →
    ts.flat → I.length ≤ L → ts.means I c v → ts.weight v ≤ ts.leaves * L
  | .nil, _, _, _, _, _, _, _, _ => Nat.zero_le _
  | .cons t ts, I, c, L, v, hp, hf, hL, h => by
      have h1 := Ty.flat_weight t I c L v.1 hp.1 hf.1 hL h.1
      have h2 := Tys.flat_weight ts I _ L v.2 hp.2 hf.2 hL h.2
      show t.weight v.1 + ts.weight v.2 ≤ (t.leaves + ts.leaves) * L
      rw [Nat.add_mul]
      omega
end

/-- **C163** (partial) — for a function none of whose lists holds items of variable
size, decoding produces at most as much data as the call carries, times the number
of items in the signature, whatever the call data.  Missing: nested lists, for which
it is false. -/
theorem C163_partial (ts : Tys) (hp : ts.proper) (hf : ts.flat) (input : List Byte)
    (hl : input.length ≤ usizeMax) (v : ts.Val) (h : readArgs ts input = .ok v) :
    ts.weight v ≤ ts.leaves * input.length := by
  obtain ⟨_, hm⟩ := (readArgs_iff ts hp input hl v).mp h
  exact Tys.flat_weight ts _ 0 input.length v hp hf (by rw [List.length_drop]; omega) hm

/-- `(address, uint256[], uint256[], bytes)`, the arguments of a batch transfer. -/
def batchTypes : Tys :=
  .cons (.prim .address) (.cons (.array (.prim (.uint 256)) u32Max)
    (.cons (.array (.prim (.uint 256)) u32Max) (.cons (.bytes u32Max) .nil)))

/-- A batch transfer whose two lists are one and the same piece of the call data. -/
def sharedData : List Byte :=
  be 4 1 ++ (word 9 ++ (word 128 ++ (word 128 ++ (word 224 ++ (word 2 ++ (word 5 ++ (word 6
    ++ word 0)))))))

example : batchTypes.proper ∧ batchTypes.flat ∧ sharedData.length ≤ usizeMax
    ∧ (readArgs batchTypes sharedData).isOk = true :=
  ⟨⟨trivial, Nat.le_refl _, Nat.le_refl _, trivial, trivial⟩, ⟨trivial, rfl, rfl, trivial, trivial⟩,
    by decide +kernel, by decide +kernel⟩

/-! ## The counterexample -/

/-- `k` copies of a word. -/
def copies (k n : Nat) : List Byte := (List.replicate k (word n)).flatten

theorem copies_succ (k n : Nat) : copies (k + 1) n = word n ++ copies k n := by
  simp [copies, List.replicate_succ]

theorem copies_length : ∀ k n, (copies k n).length = 32 * k
  | 0, _ => rfl
  | k + 1, n => by
      rw [copies_succ, List.length_append, word_length, copies_length k n]
      omega

/-- A call of `erc721Withdraw`: no collections, and `k` lists of serial numbers that
are all the same list of `k` zeros. -/
def bomb (k : Nat) : List Byte :=
  be 4 0 ++ (word 0 ++ (word 96 ++ (word 128 ++ (word 0
    ++ (word k ++ (copies k (32 * k) ++ (word k ++ copies k 0)))))))

theorem bomb_length (k : Nat) : (bomb k).length = 196 + 64 * k := by
  simp only [bomb, List.length_append, be_length, word_length, copies_length]
  omega

theorem at_wordAt {I : List Byte} {c n : Nat} (h : At I c (word n)) (hn : n < 2 ^ 256) :
    wordAt I c = some n := by
  have hl := h.len (word_ne n)
  rw [word_length] at hl
  have ht := h.take
  rw [word_length] at ht
  exact wordAt_some.mpr ⟨hl, by rw [ht, ofBe_word n hn]⟩

theorem copies_each {α : Type} (I : List Byte) (n : Nat) (v : α) (P : Nat → α → Prop)
    (hP : ∀ c, At I c (word n) → P c v) (k : Nat) : ∀ c, At I c (copies k n) →
      meansEach P 32 c (List.replicate k v) := by
  induction k with
  | zero =>
    intro c _
    trivial
  | succ k ih =>
    intro c h
    rw [copies_succ] at h
    have h2 := h.right
    rw [word_length] at h2
    rw [List.replicate_succ]
    exact ⟨hP c h.left, ih _ h2⟩

/-- What the reader makes of the call. -/
def bombValue (k : Nat) : withdrawTypes.Val :=
  ((0 : Nat), ([] : List Nat), (List.replicate k (List.replicate k 0) : List (List Nat)), ())

theorem bomb_means (k : Nat) (hk : 196 + 64 * k ≤ usizeMax) :
    withdrawTypes.means ((bomb k).drop 4) 0 (bombValue k) := by
  have hd : (bomb k).drop 4 = word 0 ++ (word 96 ++ (word 128 ++ (word 0
      ++ (word k ++ (copies k (32 * k) ++ (word k ++ copies k 0)))))) := by
    have h4 : (be 4 0).length = 4 := be_length 4 0
    rw [bomb, List.drop_append, List.drop_of_length_le (by omega), h4]
    simp
  generalize hI : (bomb k).drop 4 = I at hd
  have hlen : I.length = 192 + 64 * k := by
    rw [← hI, List.length_drop, bomb_length]
    omega
  have a0 : At I 0 (word 0 ++ (word 96 ++ (word 128 ++ (word 0
      ++ (word k ++ (copies k (32 * k) ++ (word k ++ copies k 0))))))) := ⟨[], by
    rw [List.append_nil, List.drop_zero, hd]⟩
  have a1 := a0.right
  rw [word_length] at a1
  have a2 := a1.right
  rw [word_length] at a2
  have a3 := a2.right
  rw [word_length] at a3
  have a4 := a3.right
  rw [word_length] at a4
  have b : At (I.drop 128) 0 (word k ++ (copies k (32 * k) ++ (word k ++ copies k 0))) := a4
  have b1 := b.right
  rw [word_length] at b1
  have c0 : At ((I.drop 128).drop 32) 0 (copies k (32 * k) ++ (word k ++ copies k 0)) := b1
  have c1 := c0.right
  rw [copies_length, Nat.zero_add] at c1
  have d0 : At (((I.drop 128).drop 32).drop (32 * k)) 0 (word k ++ copies k 0) := c1
  have d1 := d0.right
  rw [word_length] at d1
  have e0 : At ((((I.drop 128).drop 32).drop (32 * k)).drop 32) 0 (copies k 0) := d1
  have w0 : (0 : Nat) < 2 ^ 256 := by norm_num
  have wk : k < 2 ^ 256 := small (by omega)
  have wk32 : 32 * k < 2 ^ 256 := small (by omega)
  have hlim : k ≤ u32Max := by
    show k ≤ usizeMax
    omega
  have h1 : ∃ n, wordAt I 0 = some n ∧ (0 : Nat) = n % 2 ^ 160 :=
    ⟨0, at_wordAt a0.left w0, (Nat.zero_mod _).symm⟩
  have h2 : Points I 32 fun J => wordAt J 0 = some ([] : List Nat).length
      ∧ ([] : List Nat).length ≤ u32Max
      ∧ meansEach (fun c (v : Nat) => ∃ n, wordAt (J.drop 32) c = some n ∧ v = n % 2 ^ 160) 32 0
        ([] : List Nat) :=
    ⟨96, at_wordAt a1.left (small (by decide)), by omega,
      at_wordAt (I := I.drop 96) (c := 0) a3.left w0, Nat.zero_le _, trivial⟩
  have h3 : Points I 64 fun J =>
      wordAt J 0 = some (List.replicate k (List.replicate k (0 : Nat))).length
      ∧ (List.replicate k (List.replicate k (0 : Nat))).length ≤ u32Max
      ∧ meansEach (fun c (vs : List Nat) => Points (J.drop 32) c fun L =>
          wordAt L 0 = some vs.length ∧ vs.length ≤ u32Max
            ∧ meansEach (fun c (n : Nat) => wordAt (L.drop 32) c = some n ∧ n < 2 ^ 256) 32 0 vs)
        32 0 (List.replicate k (List.replicate k (0 : Nat))) := by
    refine ⟨128, at_wordAt a2.left (small (by decide)), by omega, ?_, ?_, ?_⟩
    · rw [List.length_replicate]
      exact at_wordAt b.left wk
    · rw [List.length_replicate]
      exact hlim
    · refine copies_each _ (32 * k) _ _ ?_ k 0 c0.left
      intro c hc
      refine ⟨32 * k, at_wordAt hc wk32, ?_, ?_, ?_, ?_⟩
      · rw [List.length_drop, List.length_drop]
        omega
      · rw [List.length_replicate]
        exact at_wordAt d0.left wk
      · rw [List.length_replicate]
        exact hlim
      · exact copies_each _ 0 _ _ (fun c hc => ⟨at_wordAt hc w0, w0⟩) k 0 e0
  exact ⟨h1, h2, h3, trivial⟩

theorem sum_replicate_nat (k a : Nat) : (List.replicate k a).sum = k * a := by
  simp

/-- **C163** (refuted) — the arguments of `erc721Withdraw` can be made to decode into
a quadratic amount of data: for every `k` that fits in memory, a call of `196 + 64 k`
bytes is decoded into `k` lists of `k` numbers. -/
theorem C163_refuted (k : Nat) (hk : 196 + 64 * k ≤ usizeMax) :
    (bomb k).length = 196 + 64 * k
      ∧ readArgs withdrawTypes (bomb k)
        = .ok ((0 : Nat), ([] : List Nat), (List.replicate k (List.replicate k 0) : List (List Nat)), ())
      ∧ withdrawTypes.weight (bombValue k) = k * k + 1 := by
  refine ⟨bomb_length k, ?_, ?_⟩
  · exact (readArgs_iff withdrawTypes withdraw_fits.1 (bomb k) (by rw [bomb_length]; exact hk)
      (bombValue k)).mpr ⟨by rw [bomb_length]; omega, bomb_means k hk⟩
  · have h : withdrawTypes.weight (bombValue k)
        = 1 + (0 + (((List.replicate k (List.replicate k 0)).map
          (fun vs : List Nat => (vs.map fun _ => 1).sum)).sum + 0)) := rfl
    rw [h, List.map_replicate, List.map_replicate, sum_replicate_nat, sum_replicate_nat,
      Nat.mul_one]
    omega

/-- **C163** (refuted) — so no constant factor bounds the data produced by the data
sent, not even within 2 MB of call data: there, a factor of 400 is exceeded. -/
theorem C163_refuted_factor : ∃ (input : List Byte) (v : withdrawTypes.Val),
    input.length ≤ 2000000 ∧ readArgs withdrawTypes input = .ok v
      ∧ 400 * input.length < withdrawTypes.weight v := by
  obtain ⟨h1, h2, h3⟩ := C163_refuted 30000 (by decide)
  refine ⟨bomb 30000, bombValue 30000, by rw [h1]; omega, h2, ?_⟩
  rw [h1, h3]
  norm_num

example : 196 + 64 * 30000 ≤ usizeMax := by decide

end Verif.Abi
