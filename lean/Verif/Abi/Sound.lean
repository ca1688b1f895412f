import Verif.Abi.Read

/-! # What the reader makes of arbitrary bytes -/

namespace Verif.Abi

open Verif

theorem ofBe_lt : ∀ bs : List Byte, ofBe bs < 256 ^ bs.length := by
  intro bs
  induction bs using List.reverseRecOn with
  | nil => simp [ofBe]
  | append_singleton xs b ih =>
    rw [ofBe_append, List.length_append, List.length_singleton, Nat.pow_succ]
    have := b.isLt
    omega

theorem ofBe_app (xs ys : List Byte) : ofBe (xs ++ ys) = ofBe xs * 256 ^ ys.length + ofBe ys := by
  induction ys using List.reverseRecOn with
  | nil => simp [ofBe]
  | append_singleton ys b ih =>
    rw [← List.append_assoc, ofBe_append, ih, ofBe_append, List.length_append,
      List.length_singleton, Nat.pow_succ]
    ring

theorem ofBe_drop12 (bs : List Byte) (h : bs.length = 32) : ofBe (bs.drop 12) = ofBe bs % 2 ^ 160 := by
  have h1 : bs = bs.take 12 ++ bs.drop 12 := (List.take_append_drop 12 bs).symm
  have hl : (bs.drop 12).length = 20 := by rw [List.length_drop, h]
  have h2 := ofBe_app (bs.take 12) (bs.drop 12)
  have h3 := ofBe_lt (bs.drop 12)
  rw [← h1, hl] at h2
  rw [hl] at h3
  have : (2 : Nat) ^ 160 = 256 ^ 20 := by norm_num
  rw [h2, this, Nat.mul_comm, Nat.mul_add_mod, Nat.mod_eq_of_lt h3]

/-! ## The pieces -/

theorem read32_iff {I : List Byte} {c : Nat} (hI : I.length ≤ usizeMax) {x : List Byte × Reader} :
    read32 ⟨I, c⟩ = .ok x ↔ c + 32 ≤ I.length ∧ x = ((I.drop c).take 32, ⟨I, c + 32⟩) := by
  simp only [read32, moveCursor, bind_ok, ensure_ok, okOr_ok, pure_ok]
  constructor
  · rintro ⟨_, ⟨_, _, rfl⟩, d, hd, rfl⟩
    simp only [getRange] at hd
    split at hd
    · rename_i hl
      rw [Nat.add_sub_cancel_left] at hd
      exact ⟨hl, by rw [Option.some.inj hd]⟩
    · cases hd
  · rintro ⟨hl, rfl⟩
    refine ⟨_, ⟨(), by omega, rfl⟩, (I.drop c).take 32, ?_, rfl⟩
    simp only [getRange]
    rw [if_pos hl, Nat.add_sub_cancel_left]

theorem wordAt_some {I : List Byte} {c n : Nat} :
    wordAt I c = some n ↔ c + 32 ≤ I.length ∧ n = ofBe ((I.drop c).take 32) := by
  unfold wordAt
  split
  · rename_i h
    simp only [Option.some.injEq, h, true_and]
    exact eq_comm
  · rename_i h
    simp [h]

theorem readU256_iff {I : List Byte} {c : Nat} (hI : I.length ≤ usizeMax) {x : Nat × Reader} :
    readU256 ⟨I, c⟩ = .ok x ↔ wordAt I c = some x.1 ∧ x.2 = ⟨I, c + 32⟩ := by
  obtain ⟨n, r⟩ := x
  simp only [readU256, bind_ok, read32_iff hI, pure_ok, wordAt_some]
  constructor
  · rintro ⟨_, ⟨h, rfl⟩, he⟩
    obtain ⟨rfl, rfl⟩ := Prod.mk.inj he
    exact ⟨⟨h, rfl⟩, rfl⟩
  · rintro ⟨⟨h, rfl⟩, rfl⟩
    exact ⟨_, ⟨h, rfl⟩, rfl⟩

theorem readPointer_iff {I : List Byte} {c : Nat} (hI : I.length ≤ usizeMax) {x : Reader × Reader} :
    readPointer ⟨I, c⟩ = .ok x ↔ ∃ off, wordAt I c = some off ∧ off < I.length
      ∧ x = (⟨I.drop off, 0⟩, ⟨I, c + 32⟩) := by
  simp only [readPointer, toUsize, sliceFrom, bind_ok, ensure_ok, pure_ok]
  constructor
  · rintro ⟨⟨n, r⟩, h, m, ⟨_, hm, rfl⟩, _, hlt, J, ⟨_, hle, rfl⟩, rfl⟩
    obtain ⟨h1, rfl⟩ := (readU256_iff hI).mp h
    exact ⟨n, h1, by simpa using hlt, rfl⟩
  · rintro ⟨off, h1, h2, rfl⟩
    exact ⟨(off, ⟨I, c + 32⟩), (readU256_iff hI).mpr ⟨h1, rfl⟩, off, ⟨(), by omega, rfl⟩, (),
      by show ¬ I.length ≤ off; omega, _, ⟨(), by show off ≤ I.length; omega, rfl⟩, rfl⟩

theorem readLength_iff {I : List Byte} {c lim : Nat} (hI : I.length ≤ usizeMax) {x : Nat × Reader} :
    readLength lim ⟨I, c⟩ = .ok x ↔ wordAt I c = some x.1 ∧ x.1 ≤ usizeMax ∧ x.1 ≤ lim
      ∧ x.2 = ⟨I, c + 32⟩ := by
  simp only [readLength, toUsize, bind_ok, ensure_ok, pure_ok]
  constructor
  · rintro ⟨⟨n, r⟩, h, m, ⟨_, hm, rfl⟩, _, hlt, rfl⟩
    obtain ⟨h1, rfl⟩ := (readU256_iff hI).mp h
    exact ⟨h1, hm, hlt, rfl⟩
  · obtain ⟨n, r⟩ := x
    rintro ⟨h1, h2, h3, rfl⟩
    exact ⟨(n, ⟨I, c + 32⟩), (readU256_iff hI).mpr ⟨h1, rfl⟩, n, ⟨(), h2, rfl⟩, (), h3, rfl⟩

/-- Reading with `f` gives exactly the values that `means` allows, and moves by `size`. -/
def Exact {α : Type} (f : Reader → Except Err (α × Reader))
    (means : List Byte → Nat → α → Prop) (size : Nat) : Prop :=
  ∀ I c x, I.length ≤ usizeMax →
    (f ⟨I, c⟩ = .ok x ↔ means I c x.1 ∧ x.2 = ⟨I, c + size⟩)

theorem take32_len {I : List Byte} {c : Nat} (h : c + 32 ≤ I.length) :
    ((I.drop c).take 32).length = 32 := by
  rw [List.length_take, List.length_drop]
  omega

theorem bytes32_exact : Exact (Prim.read .bytes32) (Prim.means .bytes32) 32 := by
  intro I c x hI
  obtain ⟨v, r⟩ := x
  have hm : Prim.means .bytes32 I c v ↔ c + 32 ≤ I.length ∧ v = ofBe ((I.drop c).take 32) :=
    wordAt_some
  rw [hm]
  simp only [Prim.read, exactly32, bind_ok, ensure_ok, pure_ok, read32_iff hI]
  constructor
  · rintro ⟨_, ⟨h, rfl⟩, _, ⟨_, _, rfl⟩, he⟩
    obtain ⟨rfl, rfl⟩ := Prod.mk.inj he
    exact ⟨⟨h, rfl⟩, rfl⟩
  · rintro ⟨⟨h, rfl⟩, rfl⟩
    exact ⟨_, ⟨h, rfl⟩, _, ⟨(), take32_len h, rfl⟩, rfl⟩

theorem uint_exact (bits : Nat) : Exact (Prim.read (.uint bits)) (Prim.means (.uint bits)) 32 := by
  intro I c x hI
  obtain ⟨v, r⟩ := x
  simp only [Prim.read, Prim.means, bind_ok, ensure_ok, pure_ok, readU256_iff hI]
  constructor
  · rintro ⟨⟨n, r⟩, ⟨h, rfl⟩, _, hb, he⟩
    obtain ⟨rfl, rfl⟩ := Prod.mk.inj he
    exact ⟨⟨h, hb⟩, rfl⟩
  · rintro ⟨⟨h, hb⟩, rfl⟩
    exact ⟨(v, ⟨I, c + 32⟩), ⟨h, rfl⟩, (), hb, rfl⟩

theorem address_exact : Exact (Prim.read .address) (Prim.means .address) 32 := by
  intro I c x hI
  obtain ⟨v, r⟩ := x
  simp only [Prim.read, Prim.means, exactly32, bind_ok, ensure_ok, pure_ok, read32_iff hI,
    wordAt_some]
  constructor
  · rintro ⟨_, ⟨h, rfl⟩, _, ⟨_, _, rfl⟩, he⟩
    obtain ⟨rfl, rfl⟩ := Prod.mk.inj he
    exact ⟨⟨_, ⟨h, rfl⟩, ofBe_drop12 _ (take32_len h)⟩, rfl⟩
  · rintro ⟨⟨_, ⟨h, rfl⟩, hv⟩, rfl⟩
    refine ⟨_, ⟨h, rfl⟩, _, ⟨(), take32_len h, rfl⟩, ?_⟩
    dsimp only
    rw [ofBe_drop12 _ (take32_len h), hv]

theorem decide_eq_of {n : Nat} {v : Bool} (h : v = true ↔ n ≠ 0) : decide (n ≠ 0) = v := by
  rw [Bool.eq_iff_iff, decide_eq_true_eq]
  exact h.symm

theorem bool_exact : Exact (Prim.read .bool) (Prim.means .bool) 32 := by
  intro I c x hI
  obtain ⟨v, r⟩ := x
  simp only [Prim.read, Prim.means, exactly32, bind_ok, ensure_ok, pure_ok, read32_iff hI,
    wordAt_some]
  constructor
  · rintro ⟨_, ⟨h, rfl⟩, _, ⟨_, _, rfl⟩, he⟩
    obtain ⟨rfl, rfl⟩ := Prod.mk.inj he
    exact ⟨⟨_, ⟨h, rfl⟩, by simp⟩, rfl⟩
  · rintro ⟨⟨_, ⟨h, rfl⟩, hv⟩, rfl⟩
    refine ⟨_, ⟨h, rfl⟩, _, ⟨(), take32_len h, rfl⟩, ?_⟩
    exact congrArg (fun b => (b, (⟨I, c + 32⟩ : Reader))) (decide_eq_of hv)

theorem Prim.exact : ∀ p : Prim, Exact p.read p.means 32
  | .bytes32 => bytes32_exact
  | .uint bits => uint_exact bits
  | .address => address_exact
  | .bool => bool_exact

theorem bytes_exact (lim : Nat) : Exact (readBytes lim) (Ty.means (.bytes lim)) 32 := by
  intro I c x hI
  obtain ⟨v, r⟩ := x
  simp only [readBytes, Ty.means, Points, moveCursor, bind_ok, ensure_ok, okOr_ok, pure_ok,
    readPointer_iff hI]
  constructor
  · rintro ⟨_, ⟨off, h1, h2, rfl⟩, ⟨n, inner⟩, hn, _, ⟨_, hm, rfl⟩, d, hd, he⟩
    obtain ⟨rfl, rfl⟩ := Prod.mk.inj he
    have hJ : (I.drop off).length ≤ usizeMax := by
      rw [List.length_drop]
      omega
    obtain ⟨w1, w2, w3, rfl⟩ := (readLength_iff hJ).mp hn
    dsimp only at hd w1 w2 w3
    unfold getRange at hd
    split at hd
    · rename_i hle
      have hd := Option.some.inj hd
      rw [Nat.add_sub_cancel_left, Nat.zero_add] at hd
      have hlen : d.length = n := by
        rw [← hd, List.length_take, List.length_drop]
        omega
      refine ⟨⟨off, h1, h2, ?_, ?_, ?_⟩, rfl⟩
      · rw [hlen]
        exact w1
      · rw [hlen]
        exact w3
      · rw [← hd]
        exact List.take_prefix _ _
    · cases hd
  · rintro ⟨⟨off, h1, h2, h3, h4, h5⟩, rfl⟩
    have hJ : (I.drop off).length ≤ usizeMax := by
      rw [List.length_drop]
      omega
    have hw := (wordAt_some.mp h3).1
    have hl := h5.length_le
    rw [List.length_drop] at hl
    have hat : At (I.drop off) 32 v := h5
    refine ⟨_, ⟨off, h1, h2, rfl⟩, (v.length, ⟨I.drop off, 0 + 32⟩),
      (readLength_iff hJ).mpr ⟨h3, by dsimp only; omega, h4, rfl⟩, _,
      ⟨(), by dsimp only; omega, rfl⟩, v, ?_, rfl⟩
    exact getRange_at hat rfl (by dsimp only at hl ⊢; omega)

theorem readN_exact {α : Type} (f : Reader → Except Err (α × Reader))
    (means : List Byte → Nat → α → Prop) (size : Nat) (hf : Exact f means size) :
    ∀ (n : Nat) (I : List Byte) (c : Nat) (x : List α × Reader), I.length ≤ usizeMax →
      (readN f n ⟨I, c⟩ = .ok x ↔ x.1.length = n ∧ meansEach (means I) size c x.1
        ∧ x.2 = ⟨I, c + n * size⟩)
  | 0, I, c, (vs, r), _ => by
      simp only [readN, pure_ok, Nat.zero_mul, Nat.add_zero]
      constructor
      · intro h
        obtain ⟨rfl, rfl⟩ := Prod.mk.inj h
        exact ⟨rfl, trivial, rfl⟩
      · rintro ⟨h, _, rfl⟩
        rw [List.length_eq_zero_iff.mp h]
  | n + 1, I, c, (vs, r), hI => by
      simp only [readN, bind_ok, pure_ok]
      constructor
      · rintro ⟨⟨v, r1⟩, h1, ⟨ws, r2⟩, h2, he⟩
        obtain ⟨m1, m2⟩ := (hf I c _ hI).mp h1
        dsimp only at m2
        subst m2
        obtain ⟨k1, k2, k3⟩ := (readN_exact f means size hf n I _ _ hI).mp h2
        dsimp only at k3
        subst k3
        obtain ⟨rfl, rfl⟩ := Prod.mk.inj he
        refine ⟨by simpa using k1, ⟨m1, k2⟩, ?_⟩
        rw [Nat.succ_mul, Nat.add_comm (n * size), Nat.add_assoc]
      · rintro ⟨h1, h2, rfl⟩
        match vs, h1, h2 with
        | v :: vs, h1, h2 =>
          refine ⟨(v, ⟨I, c + size⟩), (hf I c _ hI).mpr ⟨h2.1, rfl⟩,
            (vs, ⟨I, c + size + n * size⟩),
            (readN_exact f means size hf n I _ _ hI).mpr ⟨by simpa using h1, h2.2, rfl⟩, ?_⟩
          rw [Nat.succ_mul, Nat.add_comm (n * size), Nat.add_assoc]

/-- Consecutive values that each need room need room for all of them. -/
theorem meansEach_len {α : Type} {means : Nat → α → Prop} {size L : Nat}
    (h : ∀ c v, means c v → c + size ≤ L) :
    ∀ (vs : List α) (c : Nat), c ≤ L → meansEach means size c vs → c + vs.length * size ≤ L
  | [], c, hc, _ => by simpa using hc
  | v :: vs, c, _, hm => by
      have h1 := h c v hm.1
      have h2 := meansEach_len h vs (c + size) h1 hm.2
      rw [List.length_cons, Nat.succ_mul]
      omega

theorem array_exact {α : Type} (f : Reader → Except Err (α × Reader))
    (means : List Byte → Nat → α → Prop) (size lim : Nat) (hf : Exact f means size)
    (hs : 32 ≤ size) (hm : ∀ I c v, means I c v → c + size ≤ I.length) :
    Exact (readArray f lim) (fun I c vs => Points I c fun J =>
      wordAt J 0 = some vs.length ∧ vs.length ≤ lim
        ∧ meansEach (fun c v => means (J.drop 32) c v) size 0 vs) 32 := by
  intro I c x hI
  obtain ⟨vs, r⟩ := x
  simp only [readArray, Points, bind_ok, okOr_ok, pure_ok, readPointer_iff hI]
  constructor
  · rintro ⟨_, ⟨off, h1, h2, rfl⟩, ⟨n, inner⟩, hn, J, hJr, ⟨ws, r2⟩, hr, he⟩
    obtain ⟨rfl, rfl⟩ := Prod.mk.inj he
    have hJ : (I.drop off).length ≤ usizeMax := by
      rw [List.length_drop]
      omega
    obtain ⟨w1, w2, w3, rfl⟩ := (readLength_iff hJ).mp hn
    dsimp only at hJr w1 w2 w3 hr
    rw [getRange, if_pos (Nat.le_refl _), List.take_of_length_le (by rw [List.length_drop])] at hJr
    obtain rfl := Option.some.inj hJr
    obtain ⟨k1, k2, _⟩ := (readN_exact f means size hf n _ 0 _
      (by rw [List.length_drop]; omega)).mp hr
    dsimp only at k1 k2
    subst k1
    exact ⟨⟨off, h1, h2, w1, w3, k2⟩, rfl⟩
  · rintro ⟨⟨off, h1, h2, h3, h4, h5⟩, rfl⟩
    have hJ : (I.drop off).length ≤ usizeMax := by
      rw [List.length_drop]
      omega
    have hn := meansEach_len (L := ((I.drop off).drop 32).length) (fun c v => hm _ c v) vs 0
      (Nat.zero_le _) h5
    have hmul : vs.length * 32 ≤ vs.length * size := Nat.mul_le_mul_left _ hs
    rw [List.length_drop] at hn
    refine ⟨_, ⟨off, h1, h2, rfl⟩, (vs.length, ⟨I.drop off, 0 + 32⟩),
      (readLength_iff hJ).mpr ⟨h3, by dsimp only; omega, h4, rfl⟩, (I.drop off).drop 32, ?_,
      (vs, ⟨(I.drop off).drop 32, 0 + vs.length * size⟩),
      (readN_exact f means size hf _ _ 0 _ (by rw [List.length_drop]; omega)).mpr
        ⟨rfl, h5, rfl⟩, rfl⟩
    dsimp only
    rw [getRange, if_pos (Nat.le_refl _), List.take_of_length_le (by rw [List.length_drop])]

theorem tuple_exact {α : Type} (d : Bool) (f : Reader → Except Err (α × Reader))
    (means : List Byte → Nat → α → Prop) (size : Nat) (hf : Exact f means size) :
    Exact (readTuple (!d) f) (fun I c v => if d then Points I c fun J => means J 0 v
      else means I c v) (if d then 32 else size) := by
  intro I c x hI
  cases d
  · exact hf I c x hI
  · obtain ⟨v, r⟩ := x
    rw [readTuple, Bool.not_true, if_neg (by simp)]
    simp only [Points, bind_ok, pure_ok, readPointer_iff hI, if_true]
    constructor
    · rintro ⟨_, ⟨off, h1, h2, rfl⟩, ⟨w, r2⟩, hr, he⟩
      obtain ⟨rfl, rfl⟩ := Prod.mk.inj he
      exact ⟨⟨off, h1, h2, ((hf _ 0 _ (by rw [List.length_drop]; omega)).mp hr).1⟩, rfl⟩
    · rintro ⟨⟨off, h1, h2, h3⟩, rfl⟩
      exact ⟨_, ⟨off, h1, h2, rfl⟩, (v, ⟨I.drop off, 0 + size⟩),
        (hf _ 0 _ (by rw [List.length_drop]; omega)).mpr ⟨h3, rfl⟩, rfl⟩

/-! ## Sizes -/

mutual
theorem Ty.headSize_ge : ∀ t : Ty, t.proper → 32 ≤ t.headSize
  | .prim _, _ => Nat.le_refl _
  | .bytes _, _ => Nat.le_refl _
  | .array _ _, _ => Nat.le_refl _
  | .tuple ts, h => by
      rw [Ty.headSize]
      split
      · exact Nat.le_refl _
      · have := Tys.headSize_ge ts h.2
        have h4 : 1 ≤ ts.count := by
          cases ts with
          | nil => exact absurd rfl h.1
          | cons t ts => simp [Tys.count]
        omega
theorem Tys.headSize_ge : ∀ ts : Tys, ts.proper → 32 * ts.count ≤ ts.headSize
  | .nil, _ => Nat.zero_le _
  | .cons t ts, h => by
      have h1 := Ty.headSize_ge t h.1
      have h2 := Tys.headSize_ge ts h.2
      rw [Tys.count, Tys.headSize]
      omega
end

theorem Prim.means_len : ∀ (p : Prim) (I : List Byte) (c : Nat) (v : p.Val), p.means I c v →
    c + 32 ≤ I.length
  | .bytes32, _, _, _, h => (wordAt_some.mp h).1
  | .uint _, _, _, _, h => (wordAt_some.mp h.1).1
  | .address, _, _, _, ⟨_, h, _⟩ => (wordAt_some.mp h).1
  | .bool, _, _, _, ⟨_, h, _⟩ => (wordAt_some.mp h).1

theorem Points.len {I : List Byte} {c : Nat} {P : List Byte → Prop} (h : Points I c P) :
    c + 32 ≤ I.length := by
  obtain ⟨_, h, _⟩ := h
  exact (wordAt_some.mp h).1

mutual
theorem Ty.means_len : ∀ (t : Ty) (I : List Byte) (c : Nat) (v : t.Val), t.proper →
    t.means I c v → c + t.headSize ≤ I.length
  | .prim p, I, c, v, _, h => Prim.means_len p I c v h
  | .bytes _, I, c, v, _, h => by
      rw [Ty.means] at h
      exact Points.len h
  | .array _ _, I, c, v, _, h => by
      rw [Ty.means] at h
      exact Points.len h
  | .tuple ts, I, c, v, hp, h => by
      rw [Ty.headSize]
      have h' : if ts.dynamic then Points I c fun J => ts.means J 0 v else ts.means I c v := h
      split at h'
      · rename_i hd
        rw [if_pos hd]
        exact Points.len h'
      · rename_i hd
        rw [if_neg hd]
        have hne : ts ≠ .nil := hp.1
        rcases Tys.means_len ts I c v hp.2 h' with h | h
        · exact h
        · exact absurd h hne
theorem Tys.means_len : ∀ (ts : Tys) (I : List Byte) (c : Nat) (v : ts.Val), ts.proper →
    ts.means I c v → c + ts.headSize ≤ I.length ∨ ts = .nil
  | .nil, _, _, _, _, _ => Or.inr rfl
  | .cons t ts, I, c, v, hp, h => by
      left
      have h1 := Ty.means_len t I c v.1 hp.1 h.1
      rw [Tys.headSize]
      rcases Tys.means_len ts I (c + t.headSize) v.2 hp.2 h.2 with h2 | rfl
      · omega
      · rw [Tys.headSize]
        omega
end

theorem cons_exact {α β : Type} (f : Reader → Except Err (α × Reader))
    (g : Reader → Except Err (β × Reader)) (mf : List Byte → Nat → α → Prop)
    (mg : List Byte → Nat → β → Prop) (s1 s2 : Nat) (hf : Exact f mf s1) (hg : Exact g mg s2) :
    Exact (fun r => do
      let (v, r') ← f r
      let (vs, r'') ← g r'
      pure ((v, vs), r'')) (fun I c v => mf I c v.1 ∧ mg I (c + s1) v.2) (s1 + s2) := by
  intro I c x hI
  obtain ⟨⟨v, vs⟩, r⟩ := x
  simp only [bind_ok, pure_ok]
  constructor
  · rintro ⟨⟨v1, r1⟩, h1, ⟨v2, r2⟩, h2, he⟩
    obtain ⟨a1, a2⟩ := (hf I c _ hI).mp h1
    dsimp only at a2
    subst a2
    obtain ⟨b1, b2⟩ := (hg I _ _ hI).mp h2
    dsimp only at b2
    subst b2
    obtain ⟨he1, rfl⟩ := Prod.mk.inj he
    obtain ⟨rfl, rfl⟩ := Prod.mk.inj he1
    exact ⟨⟨a1, b1⟩, by rw [Nat.add_assoc]⟩
  · rintro ⟨⟨h1, h2⟩, rfl⟩
    exact ⟨(v, ⟨I, c + s1⟩), (hf I c _ hI).mpr ⟨h1, rfl⟩, (vs, ⟨I, c + s1 + s2⟩),
      (hg I _ _ hI).mpr ⟨h2, rfl⟩, by rw [Nat.add_assoc]⟩

mutual
theorem Ty.exact : ∀ t : Ty, t.proper → Exact t.read t.means t.headSize
  | .prim p, _ => Prim.exact p
  | .bytes lim, _ => bytes_exact lim
  | .array t lim, h => array_exact t.read t.means t.headSize lim (Ty.exact t h)
      (Ty.headSize_ge t h) (fun I c v => Ty.means_len t I c v h)
  | .tuple ts, h => by
      have := tuple_exact ts.dynamic ts.read ts.means ts.headSize (Tys.exact ts h.2)
      rw [← Tys.static_eq] at this
      exact this
theorem Tys.exact : ∀ ts : Tys, ts.proper → Exact ts.read ts.means ts.headSize
  | .nil, _ => by
      intro I c x _
      obtain ⟨v, r⟩ := x
      constructor
      · intro h
        exact ⟨trivial, (Prod.mk.inj (pure_ok.mp h)).2.symm⟩
      · rintro ⟨_, h⟩
        dsimp only at h
        subst h
        rfl
  | .cons t ts, h => cons_exact t.read ts.read t.means ts.means t.headSize ts.headSize
      (Ty.exact t h.1) (Tys.exact ts h.2)
end

/-- The arguments read from any call data are what the data means. -/
theorem readArgs_iff (ts : Tys) (hp : ts.proper) (input : List Byte) (hl : input.length ≤ usizeMax)
    (v : ts.Val) : readArgs ts input = .ok v ↔ 4 ≤ input.length ∧ ts.means (input.drop 4) 0 v := by
  have hd : (input.drop 4).length ≤ usizeMax := by
    rw [List.length_drop]
    omega
  simp only [readArgs, newSkipSelector, sliceFrom, expectArguments, Reader.new, bind_ok,
    ensure_ok, pure_ok]
  constructor
  · rintro ⟨_, ⟨_, h4, _, ⟨_, _, rfl⟩, rfl⟩, _, he, ⟨w, r⟩, hr, rfl⟩
    exact ⟨by omega, ((Tys.exact ts hp _ 0 _ hd).mp hr).1⟩
  · rintro ⟨h4, hm⟩
    refine ⟨_, ⟨(), by omega, _, ⟨(), h4, rfl⟩, rfl⟩, (), ?_,
      (v, ⟨input.drop 4, 0 + ts.headSize⟩), (Tys.exact ts hp _ 0 _ hd).mpr ⟨hm, rfl⟩, rfl⟩
    have h1 := Tys.headSize_ge ts hp
    show 0 + ts.count * 32 ≤ (input.drop 4).length
    rcases Tys.means_len ts _ 0 v hp hm with h | rfl
    · omega
    · simp [Tys.count]

end Verif.Abi
