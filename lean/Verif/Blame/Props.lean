import Verif.Blame.Model
import Verif.Uri.Props

/-!
# C252 and C253: what the messages of reverts say
-/

namespace Verif.Blame

open Abi (Byte Prim Ty Tys Reader getRange ofBe usizeMax wordAt Points meansEach)

/-! ## Specification: what is wrong with call data, and where

`Abi.wordAt`, `Abi.Points` and `Abi.Ty.means` say what call data means (Abi/Spec.lean). -/

/-- The place of a revert, outermost part first. -/
def Revert.path (e : Revert) : List Part := e.backtrace.reverse

/-- What the reason says is wrong with the word at place `c` as a value of a one-word type. -/
def badPrim (q : Prim) (I : List Byte) (c : Nat) : Reason → Prop
  | .readOutOfBounds what => what = primText q ∧ wordAt I c = none
  | .cursorOverflow => wordAt I c = none
  | .valueIsTooLarge what => what = primText q ∧ ∃ bits n, q = .uint bits ∧ wordAt I c = some n ∧ 2 ^ bits ≤ n
  | _ => False

/-- What the reason says is wrong with the pointer at place `c`. -/
def badPointer (I : List Byte) (c : Nat) : Reason → Prop
  | .readOutOfBounds what => what = tPointer ∧ wordAt I c = none
  | .valueIsTooLarge what => what = tPointer ∧ ∃ n, wordAt I c = some n ∧ 2 ^ 32 ≤ n
  | .pointerToOutofBound => ∃ n, wordAt I c = some n ∧ I.length ≤ n
  | _ => False

/-- What the reason says is wrong with the length at the beginning of the data pointed to. -/
def badLength (lim : Nat) (J : List Byte) : Reason → Prop
  | .readOutOfBounds what => what = tLength ∧ wordAt J 0 = none
  | .valueIsTooLarge what => what = tLength ∧ ∃ n, wordAt J 0 = some n ∧ (lim < n ∨ 2 ^ 32 ≤ n)
  | _ => False

/-- What the reason says is wrong with bytes of a length that is right. -/
def badContent (lim : Nat) (J : List Byte) : Reason → Prop
  | .readOutOfBounds what => what = tBytes ∧ ∃ n, wordAt J 0 = some n ∧ n ≤ lim ∧ J.length < 32 + n
  | .cursorOverflow => ∃ n, wordAt J 0 = some n ∧ n ≤ lim ∧ 2 ^ 32 ≤ 32 + n
  | _ => False

mutual
/-- The component whose head is at place `c` has the fault that the reason tells, at this path within it, and everything that comes before
it in the same arrays and tuples is in order. -/
def badTy : Ty → List Byte → Nat → List Part → Reason → Prop
  | .prim q, I, c, p, k => p = [] ∧ badPrim q I c k
  | .bytes lim, I, c, p, k => p = [] ∧ (badPointer I c k ∨ Points I c fun J => badLength lim J k ∨ badContent lim J k)
  | .array t lim, I, c, p, k =>
    match p with
    | [] => badPointer I c k ∨ Points I c fun J => badLength lim J k
    | .array i :: p => Points I c fun J => (∃ n, wordAt J 0 = some n ∧ i < n ∧ n ≤ lim)
        ∧ (∃ vs : List t.Val, vs.length = i ∧ meansEach (fun c v => t.means (J.drop 32) c v) t.headSize 0 vs)
        ∧ badTy t (J.drop 32) (i * t.headSize) p k
    | _ => False
  | .tuple ts, I, c, p, k =>
    match p with
    | [] => ts.dynamic = true ∧ badPointer I c k
    | .tuple i :: p => if ts.dynamic then Points I c fun J => badTys ts J 0 i p k else badTys ts I c i p k
    | _ => False
/-- The `i`th component has that fault, and those before it are in order. -/
def badTys : Tys → List Byte → Nat → Nat → List Part → Reason → Prop
  | .nil, _, _, _, _, _ => False
  | .cons t _, I, c, 0, p, k => badTy t I c p k
  | .cons t ts, I, c, i + 1, p, k => (∃ v, t.means I c v) ∧ badTys ts I (c + t.headSize) i p k
end

/-! ## The pieces of the reader -/

theorem within_path (e : Revert) (p : Part) : (e.within p).path = p :: e.path := by
  unfold Revert.path Revert.within
  rw [List.reverse_append]
  rfl

theorem new_path (k : Reason) : (Revert.new k).path = [] := rfl

theorem readWord_cases (what : List Byte) {I : List Byte} (c : Nat) (hI : I.length ≤ usizeMax) :
    (wordAt I c = some (ofBe ((I.drop c).take 32)) ∧ c + 32 ≤ I.length ∧ readWord what ⟨I, c⟩ = .ok ((I.drop c).take 32, ⟨I, c + 32⟩))
      ∨ (wordAt I c = none ∧ ∃ k, (k = .readOutOfBounds what ∨ k = .cursorOverflow) ∧ readWord what ⟨I, c⟩ = .error (Revert.new k)) := by
  unfold readWord wordAt getRange
  dsimp only
  by_cases h : c + 32 ≤ I.length
  · left
    rw [if_pos h, if_pos (by omega), if_pos h, Nat.add_sub_cancel_left]
    exact ⟨rfl, h, rfl⟩
  · right
    rw [if_neg h]
    refine ⟨rfl, ?_⟩
    by_cases h2 : c + 32 ≤ usizeMax
    · rw [if_pos h2, if_neg h]
      exact ⟨_, .inl rfl, rfl⟩
    · rw [if_neg h2]
      exact ⟨_, .inr rfl, rfl⟩

theorem readNum_cases (what : List Byte) {I : List Byte} (c : Nat) (hI : I.length ≤ usizeMax) :
    (∃ n, wordAt I c = some n ∧ readNum what ⟨I, c⟩ = .ok (n, ⟨I, c + 32⟩))
      ∨ (wordAt I c = none ∧ readNum what ⟨I, c⟩ = .error (Revert.new (.readOutOfBounds what))) := by
  unfold readNum
  rcases readWord_cases (tUint ++ num 256) c hI with ⟨h, _, e⟩ | ⟨h, k, _, e⟩
  · left
    rw [e]
    exact ⟨_, h, rfl⟩
  · right
    rw [e]
    exact ⟨h, rfl⟩

theorem usize_lt {n : Nat} : ¬ n ≤ usizeMax → 2 ^ 32 ≤ n := by
  unfold usizeMax
  omega

theorem readPointer_cases {I : List Byte} (c : Nat) (hI : I.length ≤ usizeMax) :
    (∃ off, wordAt I c = some off ∧ off < I.length ∧ readPointer ⟨I, c⟩ = .ok (⟨I.drop off, 0⟩, ⟨I, c + 32⟩))
      ∨ ∃ k, badPointer I c k ∧ readPointer ⟨I, c⟩ = .error (Revert.new k) := by
  unfold readPointer
  rcases readNum_cases tPointer c hI with ⟨n, h, e⟩ | ⟨h, e⟩
  · rw [e]
    dsimp only [bind, Except.bind]
    by_cases h1 : n ≤ usizeMax
    · rw [if_pos h1]
      by_cases h2 : I.length ≤ n
      · right
        rw [if_pos h2]
        exact ⟨.pointerToOutofBound, ⟨n, h, h2⟩, rfl⟩
      · left
        rw [if_neg h2]
        exact ⟨n, h, by omega, rfl⟩
    · right
      rw [if_neg h1]
      exact ⟨.valueIsTooLarge tPointer, ⟨rfl, n, h, usize_lt h1⟩, rfl⟩
  · right
    rw [e]
    exact ⟨.readOutOfBounds tPointer, ⟨rfl, h⟩, rfl⟩

theorem readLength_cases (lim : Nat) {I : List Byte} (hI : I.length ≤ usizeMax) :
    (∃ n, wordAt I 0 = some n ∧ n ≤ lim ∧ n ≤ usizeMax ∧ readLength lim ⟨I, 0⟩ = .ok (n, ⟨I, 32⟩))
      ∨ ∃ k, badLength lim I k ∧ readLength lim ⟨I, 0⟩ = .error (Revert.new k) := by
  unfold readLength
  rcases readNum_cases tLength 0 hI with ⟨n, h, e⟩ | ⟨h, e⟩
  · rw [e]
    dsimp only [bind, Except.bind]
    by_cases h1 : n ≤ usizeMax
    · rw [if_pos h1]
      by_cases h2 : n ≤ lim
      · left
        rw [if_pos h2]
        exact ⟨n, h, h2, h1, rfl⟩
      · right
        rw [if_neg h2]
        exact ⟨.valueIsTooLarge tLength, ⟨rfl, n, h, .inl (by omega)⟩, rfl⟩
    · right
      rw [if_neg h1]
      exact ⟨.valueIsTooLarge tLength, ⟨rfl, n, h, .inr (usize_lt h1)⟩, rfl⟩
  · right
    rw [e]
    exact ⟨.readOutOfBounds tLength, ⟨rfl, h⟩, rfl⟩

/-- A reader accepts only what the data means, and otherwise tells a fault that is there. -/
def Tells {α : Type} (f : Reader → Except Revert (α × Reader)) (means : List Byte → Nat → α → Prop) (size : Nat)
    (bad : List Byte → Nat → List Part → Reason → Prop) : Prop :=
  ∀ I c, I.length ≤ usizeMax →
    (∃ v, f ⟨I, c⟩ = .ok (v, ⟨I, c + size⟩) ∧ means I c v) ∨ ∃ e, f ⟨I, c⟩ = .error e ∧ bad I c e.path e.reason

theorem drop_usize {I : List Byte} {off : Nat} (hI : I.length ≤ usizeMax) : (I.drop off).length ≤ usizeMax := by
  rw [List.length_drop]
  omega

theorem prim_tells (q : Prim) : Tells (readPrim q) q.means 32 (badTy (.prim q)) := by
  intro I c hI
  have word : ∀ (q : Prim) (f : List Byte → q.Val),
      (c + 32 ≤ I.length → wordAt I c = some (ofBe ((I.drop c).take 32)) → q.means I c (f ((I.drop c).take 32))) →
      (∃ v, (readWord (primText q) ⟨I, c⟩ >>= fun x => pure (f x.1, x.2) : Except Revert (q.Val × Reader)) = .ok (v, ⟨I, c + 32⟩) ∧
        q.means I c v) ∨ ∃ e, (readWord (primText q) ⟨I, c⟩ >>= fun x => pure (f x.1, x.2) : Except Revert (q.Val × Reader)) = .error e ∧
          badTy (.prim q) I c e.path e.reason := by
    intro q f hf
    rcases readWord_cases (primText q) c hI with ⟨h, hl, e⟩ | ⟨h, k, hk, e⟩
    · left
      rw [e]
      exact ⟨_, rfl, hf hl h⟩
    · right
      rw [e]
      refine ⟨_, rfl, ?_⟩
      unfold badTy
      rcases hk with rfl | rfl
      · exact ⟨rfl, rfl, h⟩
      · exact ⟨rfl, h⟩
  cases q with
  | bytes32 => exact word .bytes32 (fun d => ofBe d) fun _ h => h
  | address =>
    exact word .address (fun d => ofBe (d.drop 12)) fun hl h => ⟨_, h, Abi.ofBe_drop12 _ (Abi.take32_len hl)⟩
  | bool =>
    show (∃ v, readBool ⟨I, c⟩ = .ok (v, ⟨I, c + 32⟩) ∧ Prim.means .bool I c v) ∨
      ∃ e, readBool ⟨I, c⟩ = .error e ∧ badTy (.prim .bool) I c e.path e.reason
    unfold readBool
    rcases readNum_cases (primText .bool) c hI with ⟨n, h, e⟩ | ⟨h, e⟩
    · left
      rw [e]
      exact ⟨decide (n ≠ 0), rfl, n, h, by simp⟩
    · right
      rw [e]
      refine ⟨_, rfl, ?_⟩
      unfold badTy
      exact ⟨rfl, rfl, h⟩
  | uint bits =>
    have fin : ∀ n, wordAt I c = some n →
        (∃ v, (if n < 2 ^ bits then pure (n, ⟨I, c + 32⟩) else fail (.valueIsTooLarge (primText (.uint bits))) :
            Except Revert (Nat × Reader)) = .ok (v, ⟨I, c + 32⟩) ∧ Prim.means (.uint bits) I c v) ∨
          ∃ e, (if n < 2 ^ bits then pure (n, ⟨I, c + 32⟩) else fail (.valueIsTooLarge (primText (.uint bits))) :
            Except Revert (Nat × Reader)) = .error e ∧ badTy (.prim (.uint bits)) I c e.path e.reason := by
      intro n h
      by_cases hb : n < 2 ^ bits
      · left
        rw [if_pos hb]
        exact ⟨n, rfl, h, hb⟩
      · right
        rw [if_neg hb]
        refine ⟨_, rfl, ?_⟩
        unfold badTy
        exact ⟨rfl, rfl, bits, n, rfl, h, by omega⟩
    show (∃ v, readUint bits ⟨I, c⟩ = .ok (v, ⟨I, c + 32⟩) ∧ Prim.means (.uint bits) I c v) ∨
      ∃ e, readUint bits ⟨I, c⟩ = .error e ∧ badTy (.prim (.uint bits)) I c e.path e.reason
    unfold readUint
    by_cases h256 : bits = 256
    · rw [if_pos h256]
      rcases readWord_cases (primText (.uint bits)) c hI with ⟨h, hl, e⟩ | ⟨h, k, hk, e⟩
      · rw [e]
        exact fin _ h
      · right
        rw [e]
        refine ⟨_, rfl, ?_⟩
        unfold badTy
        rcases hk with rfl | rfl
        · exact ⟨rfl, rfl, h⟩
        · exact ⟨rfl, h⟩
    · rw [if_neg h256]
      rcases readNum_cases (primText (.uint bits)) c hI with ⟨n, h, e⟩ | ⟨h, e⟩
      · rw [e]
        exact fin _ h
      · right
        rw [e]
        refine ⟨_, rfl, ?_⟩
        unfold badTy
        exact ⟨rfl, rfl, h⟩

theorem bytes_tells (lim : Nat) : Tells (readBytes lim) (Ty.means (.bytes lim)) 32 (badTy (.bytes lim)) := by
  intro I c hI
  unfold readBytes
  rcases readPointer_cases c hI with ⟨off, h1, h2, e⟩ | ⟨k, hk, e⟩
  · rw [e]
    dsimp only [bind, Except.bind]
    rcases readLength_cases lim (drop_usize (off := off) hI) with ⟨n, w1, w2, w3, e⟩ | ⟨k, hk, e⟩
    · rw [e]
      dsimp only
      have hJ := drop_usize (off := off) hI
      by_cases h3 : 32 + n ≤ usizeMax
      · rw [if_pos h3]
        unfold getRange
        by_cases h4 : 32 + n ≤ (I.drop off).length
        · left
          rw [if_pos h4, Nat.add_sub_cancel_left]
          refine ⟨_, rfl, ?_⟩
          unfold Ty.means
          have hlen : (((I.drop off).drop 32).take n).length = n := by
            rw [List.length_take, List.length_drop]
            omega
          refine ⟨off, h1, h2, ?_, ?_, List.take_prefix _ _⟩
          · rw [hlen]
            exact w1
          · rw [hlen]
            exact w2
        · right
          rw [if_neg h4]
          refine ⟨_, rfl, ?_⟩
          unfold badTy
          exact ⟨rfl, .inr ⟨off, h1, h2, .inr ⟨rfl, n, w1, w2, by omega⟩⟩⟩
      · right
        rw [if_neg h3]
        refine ⟨_, rfl, ?_⟩
        unfold badTy
        exact ⟨rfl, .inr ⟨off, h1, h2, .inr ⟨n, w1, w2, usize_lt h3⟩⟩⟩
    · right
      rw [e]
      refine ⟨_, rfl, ?_⟩
      unfold badTy
      exact ⟨rfl, .inr ⟨off, h1, h2, .inl hk⟩⟩
  · right
    rw [e]
    refine ⟨_, rfl, ?_⟩
    unfold badTy
    exact ⟨rfl, .inl hk⟩

theorem readN_tells {α : Type} {f : Reader → Except Revert (α × Reader)} {means : List Byte → Nat → α → Prop} {size : Nat}
    {bad : List Byte → Nat → List Part → Reason → Prop} (hf : Tells f means size bad) (I : List Byte) (hI : I.length ≤ usizeMax) :
    ∀ (n i c : Nat), (∃ vs r, readN f n i ⟨I, c⟩ = .ok (vs, r) ∧ vs.length = n ∧ meansEach (means I) size c vs) ∨
      ∃ e j p, readN f n i ⟨I, c⟩ = .error e ∧ j < n ∧ e.path = .array (i + j) :: p ∧
        (∃ vs, vs.length = j ∧ meansEach (means I) size c vs) ∧ bad I (c + j * size) p e.reason
  | 0, i, c => .inl ⟨[], _, rfl, rfl, trivial⟩
  | n + 1, i, c => by
    unfold readN
    rcases hf I c hI with ⟨v, e, hm⟩ | ⟨e, he, hb⟩
    · rw [e]
      dsimp only [place, bind, Except.bind]
      rcases readN_tells hf I hI n (i + 1) (c + size) with ⟨vs, r, e, hl, hv⟩ | ⟨e, j, p, he, hj, hp, ⟨vs, hl, hv⟩, hb⟩
      · left
        rw [e]
        exact ⟨v :: vs, r, rfl, by simp [hl], hm, hv⟩
      · right
        rw [he]
        refine ⟨e, j + 1, p, rfl, by omega, ?_, ⟨v :: vs, by simp [hl], hm, hv⟩, ?_⟩
        · rw [hp, Nat.add_assoc, Nat.add_comm 1 j]
        · rw [Nat.succ_mul, Nat.add_comm (j * size), ← Nat.add_assoc]
          exact hb
    · right
      rw [he]
      refine ⟨e.within (.array i), 0, e.path, rfl, by omega, within_path e _, ⟨[], rfl, trivial⟩, ?_⟩
      rw [Nat.zero_mul]
      exact hb

theorem array_tells (t : Ty) (lim : Nat) (hf : Tells (readTy t) t.means t.headSize (badTy t)) :
    Tells (readArray (readTy t) lim) (Ty.means (.array t lim)) 32 (badTy (.array t lim)) := by
  intro I c hI
  unfold readArray
  rcases readPointer_cases c hI with ⟨off, h1, h2, e⟩ | ⟨k, hk, e⟩
  · rw [e]
    dsimp only [bind, Except.bind]
    rcases readLength_cases lim (drop_usize (off := off) hI) with ⟨n, w1, w2, w3, e⟩ | ⟨k, hk, e⟩
    · rw [e]
      dsimp only
      have hg : getRange (I.drop off) 32 (I.drop off).length = some ((I.drop off).drop 32) := by
        unfold getRange
        rw [if_pos (Nat.le_refl _), List.take_of_length_le (by rw [List.length_drop])]
      rw [hg]
      dsimp only
      rcases readN_tells hf ((I.drop off).drop 32) (drop_usize (drop_usize hI)) n 0 0 with
        ⟨vs, r, e, hl, hv⟩ | ⟨e, j, p, he, hj, hp, hvs, hb⟩
      · left
        rw [e]
        refine ⟨vs, rfl, ?_⟩
        unfold Ty.means
        refine ⟨off, h1, h2, ?_, ?_, hv⟩
        · rw [hl]
          exact w1
        · rw [hl]
          exact w2
      · right
        rw [he]
        refine ⟨e, rfl, ?_⟩
        rw [hp]
        unfold badTy
        rw [Nat.zero_add] at hb ⊢
        exact ⟨off, h1, h2, ⟨n, w1, hj, w2⟩, hvs, hb⟩
    · right
      rw [e]
      refine ⟨_, rfl, ?_⟩
      unfold badTy
      exact .inr ⟨off, h1, h2, hk⟩
  · right
    rw [e]
    refine ⟨_, rfl, ?_⟩
    unfold badTy
    exact .inl hk

/-- The same of a list of components: the fault is in one of them. -/
def TellsAll (ts : Tys) : Prop :=
  ∀ (label : Nat → Part) (i : Nat) (I : List Byte) (c : Nat), I.length ≤ usizeMax →
    (∃ v, readTys ts label i ⟨I, c⟩ = .ok (v, ⟨I, c + ts.headSize⟩) ∧ ts.means I c v) ∨
      ∃ e j p, readTys ts label i ⟨I, c⟩ = .error e ∧ j < ts.count ∧ e.path = label (i + j) :: p ∧ badTys ts I c j p e.reason

theorem tuple_tells (ts : Tys) (h : TellsAll ts) : Tells (readTuple ts.hasStaticSize (readTys ts .tuple 0)) (Ty.means (.tuple ts))
    (Ty.tuple ts).headSize (badTy (.tuple ts)) := by
  intro I c hI
  unfold readTuple
  rw [Tys.static_eq, Ty.headSize]
  by_cases hd : ts.dynamic = true
  · rw [hd, if_neg (by decide), if_pos rfl]
    rcases readPointer_cases c hI with ⟨off, h1, h2, e⟩ | ⟨k, hk, e⟩
    · rw [e]
      dsimp only [bind, Except.bind]
      rcases h .tuple 0 (I.drop off) 0 (drop_usize hI) with ⟨v, e, hv⟩ | ⟨e, j, p, he, hj, hp, hb⟩
      · left
        rw [e]
        refine ⟨v, rfl, ?_⟩
        unfold Ty.means
        rw [if_pos hd]
        exact ⟨off, h1, h2, hv⟩
      · right
        rw [he]
        refine ⟨e, rfl, ?_⟩
        rw [hp, Nat.zero_add]
        unfold badTy
        dsimp only
        rw [if_pos hd]
        exact ⟨off, h1, h2, hb⟩
    · right
      rw [e]
      refine ⟨_, rfl, ?_⟩
      unfold badTy
      exact ⟨hd, hk⟩
  · have hd' : ts.dynamic = false := by simpa using hd
    rw [hd', if_pos (by decide : (!false) = true), if_neg (by decide)]
    rcases h .tuple 0 I c hI with ⟨v, e, hv⟩ | ⟨e, j, p, he, hj, hp, hb⟩
    · left
      refine ⟨v, e, ?_⟩
      unfold Ty.means
      rw [if_neg hd]
      exact hv
    · right
      refine ⟨e, he, ?_⟩
      rw [hp, Nat.zero_add]
      unfold badTy
      dsimp only
      rw [if_neg hd]
      exact hb

mutual
theorem ty_tells : ∀ t : Ty, Tells (readTy t) t.means t.headSize (badTy t)
  | .prim q => prim_tells q
  | .bytes lim => bytes_tells lim
  | .array t lim => array_tells t lim (ty_tells t)
  | .tuple ts => tuple_tells ts (tys_tells ts)
theorem tys_tells : ∀ ts : Tys, TellsAll ts
  | .nil => fun _ _ I c _ => .inl ⟨(), rfl, trivial⟩
  | .cons t ts => by
    intro label i I c hI
    unfold readTys
    rcases ty_tells t I c hI with ⟨v, e, hm⟩ | ⟨e, he, hb⟩
    · rw [e]
      dsimp only [place, bind, Except.bind]
      rcases tys_tells ts label (i + 1) I (c + t.headSize) hI with ⟨vs, e, hv⟩ | ⟨e, j, p, he, hj, hp, hb⟩
      · left
        rw [e]
        refine ⟨(v, vs), ?_, hm, hv⟩
        rw [Tys.headSize, ← Nat.add_assoc]
        rfl
      · right
        rw [he]
        refine ⟨e, j + 1, p, rfl, by rw [Tys.count]; omega, ?_, ⟨v, hm⟩, hb⟩
        rw [hp, Nat.add_assoc, Nat.add_comm 1 j]
    · right
      rw [he]
      exact ⟨e.within (label i), 0, e.path, rfl, by rw [Tys.count]; omega, within_path e _, hb⟩
end

/-! ## The faults are real -/

theorem pointer_real {I : List Byte} {c : Nat} {k : Reason} (hI : I.length ≤ usizeMax) (h : badPointer I c k) (P : List Byte → Prop) :
    ¬ Points I c P := by
  rintro ⟨off, h1, h2, _⟩
  have hu : usizeMax < 2 ^ 32 := by decide
  cases k with
  | readOutOfBounds w => rw [h.2] at h1; cases h1
  | valueIsTooLarge w =>
    obtain ⟨_, n, hn, hb⟩ := h
    rw [hn] at h1
    cases h1
    omega
  | pointerToOutofBound =>
    obtain ⟨n, hn, hb⟩ := h
    rw [hn] at h1
    cases h1
    omega
  | _ => exact h

theorem length_real {J : List Byte} {lim m : Nat} {k : Reason} (h : badLength lim J k) (hw : wordAt J 0 = some m) (hm : m ≤ lim)
    (hu : m < 2 ^ 32) : False := by
  cases k with
  | readOutOfBounds w => rw [h.2] at hw; cases hw
  | valueIsTooLarge w =>
    obtain ⟨_, n, hn, hb⟩ := h
    rw [hn] at hw
    cases hw
    omega
  | _ => exact h

theorem prim_real (q : Prim) {I : List Byte} {c : Nat} {k : Reason} (h : badPrim q I c k) (v : q.Val) : ¬ q.means I c v := by
  intro hm
  have hn : wordAt I c ≠ none := by
    have := Prim.means_len q I c v hm
    unfold wordAt
    rw [if_pos this]
    exact Option.some_ne_none _
  cases k with
  | readOutOfBounds w => exact hn h.2
  | cursorOverflow => exact hn h
  | valueIsTooLarge w =>
    obtain ⟨_, bits, n, rfl, hw, hb⟩ := h
    obtain ⟨h1, h2⟩ := hm
    rw [hw] at h1
    cases h1
    exact absurd h2 (by omega)
  | _ => exact h

theorem meansEach_get {α : Type} {means : Nat → α → Prop} {size : Nat} :
    ∀ (vs : List α) (c i : Nat), meansEach means size c vs → i < vs.length → ∃ v, means (c + i * size) v
  | [], _, _, _, h => absurd h (by simp)
  | v :: vs, c, 0, hm, _ => ⟨v, by rw [Nat.zero_mul]; exact hm.1⟩
  | v :: vs, c, i + 1, hm, h => by
    obtain ⟨w, hw⟩ := meansEach_get vs (c + size) i hm.2 (by simpa using h)
    refine ⟨w, ?_⟩
    rw [Nat.succ_mul, Nat.add_comm (i * size), ← Nat.add_assoc]
    exact hw

mutual
theorem ty_real : ∀ (t : Ty) (I : List Byte) (c : Nat) (p : List Part) (k : Reason), t.proper → I.length ≤ usizeMax →
    badTy t I c p k → ∀ v, ¬ t.means I c v
  | .prim q, I, c, p, k, _, hI, h, v => by
    unfold badTy at h
    exact prim_real q h.2 v
  | .bytes lim, I, c, p, k, _, hI, h, v => by
    unfold badTy at h
    unfold Ty.means
    rcases h.2 with h | ⟨off, h1, h2, h⟩
    · exact pointer_real hI h _
    · rintro ⟨off', h1', h2', m1, m2, m3⟩
      rw [h1] at h1'
      cases h1'
      have hJ := drop_usize (off := off) hI
      have hl := m3.length_le
      rw [List.length_drop] at hl
      have hu : usizeMax < 2 ^ 32 := by decide
      rcases h with h | h
      · exact length_real h m1 m2 (by omega)
      · have hw := (Abi.wordAt_some.mp m1).1
        cases k with
        | readOutOfBounds w =>
          obtain ⟨_, n, hn, hb, hc⟩ := h
          rw [hn] at m1
          cases m1
          omega
        | cursorOverflow =>
          obtain ⟨n, hn, hb, hc⟩ := h
          rw [hn] at m1
          cases m1
          omega
        | _ => exact h
  | .array t lim, I, c, p, k, hp, hI, h, v => by
    unfold badTy at h
    have hv : Ty.means (.array t lim) I c v = Points I c fun J =>
      wordAt J 0 = some (List.length (α := t.Val) v) ∧ List.length (α := t.Val) v ≤ lim
        ∧ meansEach (fun c v => t.means (J.drop 32) c v) t.headSize 0 v := by rw [Ty.means]
    rw [hv]
    have hu : usizeMax < 2 ^ 32 := by decide
    match p, h with
    | [], h =>
      dsimp only at h
      rcases h with h | ⟨off, h1, h2, h⟩
      · exact pointer_real hI h _
      · rintro ⟨off', h1', h2', m1, m2, m3⟩
        rw [h1] at h1'
        cases h1'
        have hJ := drop_usize (off := off) hI
        have hn := Abi.meansEach_len (L := ((I.drop off).drop 32).length) (fun c v => Ty.means_len t _ c v hp) v 0 (Nat.zero_le _) m3
        have hs := Ty.headSize_ge t hp
        have hmul : List.length (α := t.Val) v * 32 ≤ List.length (α := t.Val) v * t.headSize := Nat.mul_le_mul_left _ hs
        rw [List.length_drop] at hn
        exact length_real h m1 m2 (by omega)
    | .array i :: p, h =>
      obtain ⟨off, h1, h2, ⟨n, hn, hi, _⟩, _, hb⟩ := h
      rintro ⟨off', h1', h2', m1, m2, m3⟩
      rw [h1] at h1'
      cases h1'
      rw [hn] at m1
      cases m1
      obtain ⟨w, hw⟩ := meansEach_get v 0 i m3 hi
      rw [Nat.zero_add] at hw
      exact ty_real t _ _ p k hp (drop_usize (drop_usize hI)) hb w hw
    | .field _ :: _, h => exact h.elim
    | .tuple _ :: _, h => exact h.elim
  | .tuple ts, I, c, p, k, hp, hI, h, v => by
    unfold badTy at h
    have hv : Ty.means (.tuple ts) I c v = if ts.dynamic then Points I c fun J => ts.means J 0 v else ts.means I c v := by rw [Ty.means]
    rw [hv]
    match p, h with
    | [], h =>
      rw [if_pos h.1]
      exact pointer_real hI h.2 _
    | .tuple i :: p, h =>
      dsimp only at h
      split at h
      · rename_i hd
        rw [if_pos hd]
        obtain ⟨off, h1, h2, hb⟩ := h
        rintro ⟨off', h1', h2', m⟩
        rw [h1] at h1'
        cases h1'
        exact tys_real ts _ _ i p k hp.2 (drop_usize hI) hb v m
      · rename_i hd
        rw [if_neg hd]
        exact tys_real ts _ _ i p k hp.2 hI h v
    | .field _ :: _, h => exact h.elim
    | .array _ :: _, h => exact h.elim
theorem tys_real : ∀ (ts : Tys) (I : List Byte) (c i : Nat) (p : List Part) (k : Reason), ts.proper → I.length ≤ usizeMax →
    badTys ts I c i p k → ∀ v, ¬ ts.means I c v
  | .nil, I, c, i, p, k, _, _, h, _ => by
    unfold badTys at h
    exact h.elim
  | .cons t ts, I, c, 0, p, k, hp, hI, h, v => by
    unfold badTys at h
    exact fun hm => ty_real t I c p k hp.1 hI h v.1 hm.1
  | .cons t ts, I, c, i + 1, p, k, hp, hI, h, v => by
    unfold badTys at h
    exact fun hm => tys_real ts I _ i p k hp.2 hI h.2 v.2 hm.2
end

/-! ## C252 -/

/-- **C252** — what a contract says when it does not accept its arguments: that there is no selector; or that there are too few words for
the arguments; or that an argument, named first, is wrong at a place within it, in a way that is true of the call data there, and everything
before that place is in order. For all types of arguments and any call data. -/
theorem C252_first (names : List (List Byte)) (ts : Tys) (input : List Byte) (hl : input.length ≤ usizeMax) (e : Revert)
    (h : readArgs names ts input = .error e) :
    (input.length < 4 ∧ e.path = [] ∧ e.reason = .readOutOfBounds tSelector) ∨
      (4 ≤ input.length ∧ input.length < 4 + 32 * ts.count ∧ e.path = [] ∧ e.reason = .expectedAtLeast ts.count) ∨
      (4 + 32 * ts.count ≤ input.length ∧ ∃ i p, i < ts.count ∧ e.path = .field (camel (names.getD i [])) :: p ∧
        badTys ts (input.drop 4) 0 i p e.reason) := by
  unfold readArgs at h
  by_cases h4 : input.length < 4
  · rw [if_pos h4] at h
    cases h
    exact .inl ⟨h4, rfl, rfl⟩
  · rw [if_neg h4] at h
    have hd : (input.drop 4).length = input.length - 4 := by rw [List.length_drop]
    by_cases hc : ts.count * 32 ≤ (input.drop 4).length
    · rw [if_pos hc] at h
      rcases tys_tells ts (fun i => .field (camel (names.getD i []))) 0 (input.drop 4) 0 (drop_usize hl) with ⟨v, e', _⟩ | ⟨e', j, p, he, hj, hp, hb⟩
      · rw [Abi.Reader.new, e'] at h
        cases h
      · rw [Abi.Reader.new, he] at h
        cases h
        rw [Nat.zero_add] at hp
        exact .inr (.inr ⟨by omega, j, p, hj, hp, hb⟩)
    · rw [if_neg hc] at h
      cases h
      exact .inr (.inl ⟨by omega, by omega, rfl, rfl⟩)

/-- **C252** — a fault is a fault: call data that has one means no arguments. -/
theorem C252_real (ts : Tys) (hp : ts.proper) (I : List Byte) (hl : I.length ≤ usizeMax) (c i : Nat) (p : List Part) (k : Reason)
    (h : badTys ts I c i p k) : ¬ ∃ v, ts.means I c v :=
  fun ⟨v, hv⟩ => tys_real ts I c i p k hp hl h v hv

/-- **C252** — arguments are accepted, with the same values, exactly when the call data means them (C161), whatever the names are. -/
theorem C252_same (names : List (List Byte)) (ts : Tys) (hp : ts.proper) (input : List Byte) (hl : input.length ≤ usizeMax) (v : ts.Val) :
    readArgs names ts input = .ok v ↔ 4 ≤ input.length ∧ ts.means (input.drop 4) 0 v := by
  have hd := drop_usize (off := 4) hl
  constructor
  · intro h
    unfold readArgs at h
    by_cases h4 : input.length < 4
    · rw [if_pos h4] at h
      cases h
    · rw [if_neg h4] at h
      by_cases hc : ts.count * 32 ≤ (input.drop 4).length
      · rw [if_pos hc] at h
        rcases tys_tells ts (fun i => .field (camel (names.getD i []))) 0 (input.drop 4) 0 hd with ⟨w, e', hw⟩ | ⟨e', j, p, he, _⟩
        · rw [Abi.Reader.new, e'] at h
          cases h
          exact ⟨by omega, hw⟩
        · rw [Abi.Reader.new, he] at h
          cases h
      · rw [if_neg hc] at h
        cases h
  · rintro ⟨h4, hm⟩
    cases hr : readArgs names ts input with
    | ok w =>
      have hw : 4 ≤ input.length ∧ ts.means (input.drop 4) 0 w := by
        unfold readArgs at hr
        rw [if_neg (by omega)] at hr
        by_cases hc : ts.count * 32 ≤ (input.drop 4).length
        · rw [if_pos hc] at hr
          rcases tys_tells ts (fun i => .field (camel (names.getD i []))) 0 (input.drop 4) 0 hd with ⟨w, e', hw⟩ | ⟨e', j, p, he, _⟩
          · rw [Abi.Reader.new, e'] at hr
            cases hr
            exact ⟨by omega, hw⟩
          · rw [Abi.Reader.new, he] at hr
            cases hr
        · rw [if_neg hc] at hr
          cases hr
      have a := (Abi.readArgs_iff ts hp input hl w).mpr hw
      have b := (Abi.readArgs_iff ts hp input hl v).mpr ⟨h4, hm⟩
      rw [a] at b
      cases b
      rfl
    | error e =>
      rcases C252_first names ts input hl e hr with ⟨h, _⟩ | ⟨_, h, _⟩ | ⟨_, i, p, _, _, hb⟩
      · omega
      · have h1 := Tys.headSize_ge ts hp
        rcases Tys.means_len ts _ 0 v hp hm with h2 | rfl
        · rw [List.length_drop] at h2
          omega
        · simp only [Tys.count] at h
          omega
      · exact absurd hm (tys_real ts _ 0 i p _ hp hd hb v)

end Verif.Blame
