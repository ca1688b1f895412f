import Verif.Text.Model
import Verif.Uri.Props

/-!
# What is proved of texts that are read from outside
-/

namespace Verif.Text

open Abi (Byte)
open Uri (Digits number)

/-! ## Specification -/

/-- The character is the hexadecimal digit of this value, in either case. -/
def HexDigit (b : Byte) (v : Nat) : Prop := (v < 10 ∧ b.val = 48 + v) ∨ (10 ≤ v ∧ v < 16 ∧ (b.val = 87 + v ∨ b.val = 55 + v))

/-- The text is the hexadecimal text of the bytes. -/
inductive HexOf : List Byte → List Byte → Prop
  | nil : HexOf [] []
  | cons {a b x : Byte} {u v : Nat} {r bs : List Byte} : HexDigit a u → HexDigit b v → x.val = 16 * u + v → HexOf r bs →
      HexOf (a :: b :: r) (x :: bs)

/-- Reading the hexadecimal digits of the text, after those of the first number, gives the second. -/
inductive HexNum : Nat → List Byte → Nat → Prop
  | nil {a : Nat} : HexNum a [] a
  | cons {a v n : Nat} {b : Byte} {r : List Byte} : HexDigit b v → HexNum (16 * a + v) r n → HexNum a (b :: r) n

/-- The text is a decimal number, perhaps after a plus sign. -/
def NumOf (t : List Byte) (n : Nat) : Prop := ∃ ds, (t = ds ∨ t = 43 :: ds) ∧ Digits ds ∧ number ds = n

/-- The text of a hash. -/
def HashOf (t bs : List Byte) : Prop := HexOf t bs ∧ bs.length = 32

/-- The text of a memo by the documentation: five fields between colons, and anything after a sixth. -/
def MemoOf (t : List Byte) (d : Data) : Prop := ∃ g n m p h tail,
  t = g ++ 58 :: (n ++ 58 :: (m ++ 58 :: (p ++ 58 :: (h ++ tail)))) ∧ (tail = [] ∨ ∃ r, tail = 58 :: r) ∧
  HashOf g d.genesis ∧ NumOf n d.nonce ∧ NumOf m d.maxBlock ∧ NumOf p d.tip ∧ HashOf h d.call ∧
  d.nonce < U32 ∧ d.maxBlock < U32 ∧ d.tip < U64

/-- What a wallet writes. -/
def written (d : Data) : List Byte :=
  Uri.hex d.genesis ++ 58 :: (Uri.decimal 20 d.nonce ++ 58 :: (Uri.decimal 20 d.maxBlock ++ 58 :: (Uri.decimal 20 d.tip ++ 58 ::
    (Uri.hex d.call ++ []))))

/-! ## Hexadecimal -/

theorem hexVal_iff {b : Byte} {v : Nat} : hexVal b = some v ↔ HexDigit b v := by
  unfold hexVal HexDigit
  constructor
  · intro h
    split at h
    · have := Option.some.inj h
      omega
    · split at h
      · have := Option.some.inj h
        omega
      · split at h
        · have := Option.some.inj h
          omega
        · cases h
  · intro h
    split
    · congr 1
      omega
    · split
      · congr 1
        omega
      · split
        · congr 1
          omega
        · omega

theorem HexDigit.lt {b : Byte} {v : Nat} (h : HexDigit b v) : v < 16 := by
  unfold HexDigit at h
  omega

theorem ofNat_val {n : Nat} (h : n < 256) : (Fin.ofNat 256 n : Byte).val = n := Nat.mod_eq_of_lt h

theorem hexDecode_iff : ∀ (t bs : List Byte), hexDecode t = some bs ↔ HexOf t bs
  | [], bs => by
    unfold hexDecode
    constructor
    · intro h
      cases h
      exact .nil
    · intro h
      cases h
      rfl
  | [a], bs => by
    unfold hexDecode
    constructor
    · intro h
      cases h
    · intro h
      cases h
  | a :: b :: r, bs => by
    unfold hexDecode
    constructor
    · intro h
      split at h
      · rename_i x y cs hx hy hr
        cases h
        have hx := hexVal_iff.1 hx
        have hy := hexVal_iff.1 hy
        have h1 := hx.lt
        have h2 := hy.lt
        exact .cons hx hy (ofNat_val (by omega)) ((hexDecode_iff r cs).1 hr)
      · cases h
    · intro h
      cases h with
      | cons hu hv hx hr =>
        rename_i x u v cs
        rw [hexVal_iff.2 hu, hexVal_iff.2 hv, (hexDecode_iff r cs).2 hr]
        have h1 := hu.lt
        have h2 := hv.lt
        have : (Fin.ofNat 256 (16 * u + v) : Byte) = x := Fin.ext (by rw [ofNat_val (by omega), hx])
        rw [← this]

theorem HexOf.length {t bs : List Byte} (h : HexOf t bs) : t.length = 2 * bs.length := by
  induction h with
  | nil => rfl
  | cons _ _ _ _ ih =>
    simp only [List.length_cons, ih]
    omega

theorem HexOf.mem {t bs : List Byte} (h : HexOf t bs) : ∀ b ∈ t, ∃ v, HexDigit b v := by
  induction h with
  | nil => intro b hb; cases hb
  | cons hu hv _ _ ih =>
    intro b hb
    rw [List.mem_cons, List.mem_cons] at hb
    rcases hb with rfl | rfl | hb
    · exact ⟨_, hu⟩
    · exact ⟨_, hv⟩
    · exact ih b hb

theorem hexDigit_digit {n : Nat} (h : n < 16) : HexDigit (Uri.hexDigit n) n := by
  unfold HexDigit
  rw [Uri.hexDigit_val h]
  split <;> omega

theorem hex_hexOf : ∀ bs : List Byte, HexOf (Uri.hex bs) bs
  | [] => .nil
  | b :: bs => .cons (hexDigit_digit (by omega)) (hexDigit_digit (by omega)) (by omega) (hex_hexOf bs)

/-! ## Decimal -/

theorem foldl_ge (ds : List Byte) : ∀ a : Nat, a ≤ ds.foldl (fun a b => 10 * a + (b.val - 48)) a := by
  induction ds with
  | nil => intro a; exact Nat.le_refl _
  | cons b ds ih =>
    intro a
    have := ih (10 * a + (b.val - 48))
    rw [List.foldl_cons]
    omega

theorem digits_iff (bound : Nat) : ∀ (ds : List Byte) (a n : Nat), a < bound →
    (digits bound a ds = some n ↔ (∀ b ∈ ds, 48 ≤ b.val ∧ b.val ≤ 57) ∧ ds.foldl (fun a b => 10 * a + (b.val - 48)) a = n ∧ n < bound)
  | [], a, n, ha => by
    unfold digits
    constructor
    · intro h
      cases h
      exact ⟨(fun _ hb => nomatch hb), rfl, ha⟩
    · rintro ⟨_, h, _⟩
      rw [← h]
      rfl
  | b :: ds, a, n, ha => by
    unfold digits
    rw [List.foldl_cons]
    constructor
    · intro h
      split at h
      · rename_i hb
        obtain ⟨h1, h2, h3⟩ := (digits_iff bound ds _ n hb.2.2).1 h
        refine ⟨fun c hc => ?_, h2, h3⟩
        rw [List.mem_cons] at hc
        rcases hc with rfl | hc
        · exact ⟨hb.1, hb.2.1⟩
        · exact h1 c hc
      · cases h
    · rintro ⟨h1, h2, h3⟩
      have hb := h1 b (List.mem_cons_self ..)
      have hlt : 10 * a + (b.val - 48) < bound := by
        have := foldl_ge ds (10 * a + (b.val - 48))
        omega
      rw [if_pos ⟨hb.1, hb.2, hlt⟩]
      exact (digits_iff bound ds _ n hlt).2 ⟨fun c hc => h1 c (List.mem_cons_of_mem _ hc), h2, h3⟩

theorem parseNum_iff {bound : Nat} (h0 : 0 < bound) {t : List Byte} {n : Nat} :
    parseNum bound t = some n ↔ NumOf t n ∧ n < bound := by
  unfold parseNum
  cases t with
  | nil =>
    constructor
    · intro h
      cases h
    · rintro ⟨⟨ds, h, hd, _⟩, _⟩
      rcases h with h | h
      · exact absurd h.symm hd.1
      · cases h
  | cons b r =>
    dsimp only
    by_cases hb : b.val = 43
    · have hb' : b = 43 := Fin.ext hb
      rw [if_pos hb]
      by_cases hr : r = []
      · rw [if_pos hr]
        constructor
        · intro h
          cases h
        · rintro ⟨⟨ds, h, hd, _⟩, _⟩
          rcases h with h | h
          · have := hd.2 b (by rw [← h]; exact List.mem_cons_self ..)
            omega
          · injection h with _ h
            exact absurd (h.symm.trans hr) hd.1
      · rw [if_neg hr, digits_iff bound r 0 n h0]
        constructor
        · rintro ⟨h1, h2, h3⟩
          exact ⟨⟨r, .inr (by rw [hb']), ⟨hr, h1⟩, h2⟩, h3⟩
        · rintro ⟨⟨ds, h, hd, hn⟩, h3⟩
          rcases h with h | h
          · have := hd.2 b (by rw [← h]; exact List.mem_cons_self ..)
            omega
          · injection h with _ h
            rw [h]
            exact ⟨hd.2, hn, h3⟩
    · rw [if_neg hb, digits_iff bound (b :: r) 0 n h0]
      constructor
      · rintro ⟨h1, h2, h3⟩
        exact ⟨⟨b :: r, .inl rfl, ⟨by simp, h1⟩, h2⟩, h3⟩
      · rintro ⟨⟨ds, h, hd, hn⟩, h3⟩
        rcases h with h | h
        · rw [h]
          exact ⟨hd.2, hn, h3⟩
        · injection h with h _
          exact absurd (congrArg Fin.val h) hb

/-! ## Colons -/

theorem split_none {t : List Byte} (h : ∀ b ∈ t, b.val ≠ 58) : splitColon t = [t] := by
  induction t with
  | nil => rfl
  | cons b r ih =>
    unfold splitColon
    rw [if_neg (h b (List.mem_cons_self ..)), ih (fun c hc => h c (List.mem_cons_of_mem _ hc))]

theorem split_cons {g : List Byte} (h : ∀ b ∈ g, b.val ≠ 58) (t : List Byte) : splitColon (g ++ 58 :: t) = g :: splitColon t := by
  induction g with
  | nil =>
    show splitColon (58 :: t) = _
    conv_lhs => unfold splitColon
    exact if_pos rfl
  | cons b r ih =>
    show splitColon (b :: (r ++ 58 :: t)) = _
    conv_lhs => unfold splitColon
    rw [if_neg (h b (List.mem_cons_self ..)), ih (fun c hc => h c (List.mem_cons_of_mem _ hc))]

theorem split_inv : ∀ {t g : List Byte} {rest : List (List Byte)}, splitColon t = g :: rest →
    (rest = [] ∧ t = g) ∨ ∃ t', t = g ++ 58 :: t' ∧ rest = splitColon t'
  | [], g, rest, h => by
    unfold splitColon at h
    cases h
    exact .inl ⟨rfl, rfl⟩
  | b :: r, g, rest, h => by
    unfold splitColon at h
    split at h
    · rename_i hb
      cases h
      have : b = 58 := Fin.ext hb
      exact .inr ⟨r, by rw [this]; rfl, rfl⟩
    · split at h
      · cases h
        rename_i h1
        exact absurd h1 (by
          cases r with
          | nil => unfold splitColon; exact (by simp)
          | cons c r =>
            unfold splitColon
            split
            · simp
            · split <;> simp)
      · rename_i h' t' h1
        cases h
        rcases split_inv h1 with ⟨e1, e2⟩ | ⟨u, e1, e2⟩
        · exact .inl ⟨e1, by rw [e2]⟩
        · exact .inr ⟨u, by rw [e1]; rfl, e2⟩

theorem HexOf.noColon {t bs : List Byte} (h : HexOf t bs) : ∀ b ∈ t, b.val ≠ 58 := by
  intro b hb
  obtain ⟨v, hv⟩ := h.mem b hb
  unfold HexDigit at hv
  omega

theorem NumOf.noColon {t : List Byte} {n : Nat} (h : NumOf t n) : ∀ b ∈ t, b.val ≠ 58 := by
  intro b hb
  obtain ⟨ds, h, hd, _⟩ := h
  rcases h with h | h
  · rw [h] at hb
    have := hd.2 b hb
    omega
  · rw [h, List.mem_cons] at hb
    rcases hb with rfl | hb
    · decide
    · have := hd.2 b hb
      omega

theorem hash_iff {t bs : List Byte} : hash t = some bs ↔ HashOf t bs := by
  unfold hash HashOf
  rw [← hexDecode_iff]
  cases hexDecode t with
  | none => simp
  | some cs =>
    dsimp only
    constructor
    · intro h
      split at h
      · cases h
        exact ⟨rfl, by assumption⟩
      · cases h
    · rintro ⟨h, h2⟩
      cases h
      rw [if_pos h2]

/-! ## C218: the memo of an XRPL message -/

/-- A memo is accepted exactly if it has the documented form, and gives what it spells. -/
theorem C218_grammar (t : List Byte) (d : Data) : parseData t = some d ↔ MemoOf t d := by
  unfold parseData MemoOf
  constructor
  · intro h
    split at h
    · rename_i g n m p k rest hs
      split at h
      · rename_i g' n' m' p' k' hg hn hm hp hk
        cases h
        have hg := hash_iff.1 hg
        have hn := (parseNum_iff (by decide)).1 hn
        have hm := (parseNum_iff (by decide)).1 hm
        have hp := (parseNum_iff (by decide)).1 hp
        have hk := hash_iff.1 hk
        obtain ⟨e, _⟩ | ⟨t1, e1, s1⟩ := split_inv hs
        · cases e
        obtain ⟨e, _⟩ | ⟨t2, e2, s2⟩ := split_inv s1.symm
        · cases e
        obtain ⟨e, _⟩ | ⟨t3, e3, s3⟩ := split_inv s2.symm
        · cases e
        obtain ⟨e, _⟩ | ⟨t4, e4, s4⟩ := split_inv s3.symm
        · cases e
        obtain ⟨_, e5⟩ | ⟨t5, e5, _⟩ := split_inv s4.symm
        · exact ⟨g, n, m, p, k, [], by rw [e1, e2, e3, e4, e5, List.append_nil], .inl rfl, hg, hn.1, hm.1, hp.1, hk, hn.2, hm.2, hp.2⟩
        · exact ⟨g, n, m, p, k, 58 :: t5, by rw [e1, e2, e3, e4, e5], .inr ⟨t5, rfl⟩, hg, hn.1, hm.1, hp.1, hk, hn.2, hm.2, hp.2⟩
      · cases h
    · cases h
  · rintro ⟨g, n, m, p, k, tail, rfl, ht, hg, hn, hm, hp, hk, h1, h2, h3⟩
    have e : ∃ rest, splitColon (k ++ tail) = k :: rest := by
      rcases ht with rfl | ⟨r, rfl⟩
      · exact ⟨[], by rw [List.append_nil]; exact split_none hk.1.noColon⟩
      · exact ⟨_, split_cons hk.1.noColon r⟩
    obtain ⟨rest, e⟩ := e
    rw [split_cons hg.1.noColon, split_cons hn.noColon, split_cons hm.noColon, split_cons hp.noColon, e]
    dsimp only
    rw [hash_iff.2 hg, (parseNum_iff (by decide)).2 ⟨hn, h1⟩, (parseNum_iff (by decide)).2 ⟨hm, h2⟩,
      (parseNum_iff (by decide)).2 ⟨hp, h3⟩, hash_iff.2 hk]

theorem decimal_numOf {n : Nat} (h : n < U64) : NumOf (Uri.decimal 20 n) n := by
  refine ⟨_, .inl rfl, ?_, Uri.decimal_number 20 n (by decide) (Nat.lt_trans h (by decide))⟩
  rcases Uri.decimal_digits 20 n (by decide) with h | h
  · exact h
  · cases h

/-- What a wallet writes is read back, for all that can be asked for. -/
theorem C218_written (d : Data) (hg : d.genesis.length = 32) (hc : d.call.length = 32) (hn : d.nonce < U32) (hm : d.maxBlock < U32)
    (hp : d.tip < U64) : parseData (written d) = some d :=
  (C218_grammar _ _).2 ⟨_, _, _, _, _, [], rfl, .inl rfl, ⟨hex_hexOf _, hg⟩, decimal_numOf (Nat.lt_trans hn (by decide)),
    decimal_numOf (Nat.lt_trans hm (by decide)), decimal_numOf hp, ⟨hex_hexOf _, hc⟩, hn, hm, hp⟩

/-- The memo that counts is the first whose type is "extrinsic", in any case; those before it need a type that is text; those after it
are not looked at. -/
theorem C218_first (l r : List (List Byte × List Byte)) (kind data k t : List Byte)
    (hl : ∀ m ∈ l, ∃ x, HexOf m.1 x ∧ Uri.utf8 x.length x = true ∧ x.map lower ≠ extrinsic)
    (hk : HexOf kind k) (he : k.map lower = extrinsic) (hd : HexOf data t) (ht : Uri.utf8 t.length t = true) (d : Data) :
    extrinsicData (l ++ (kind, data) :: r) = some d ↔ MemoOf t d := by
  induction l with
  | nil =>
    show extrinsicData ((kind, data) :: r) = some d ↔ _
    unfold extrinsicData
    have hu : Uri.utf8 k.length k = true := by
      refine Uri.utf8_ascii k _ (Nat.le_refl _) (fun b hb => ?_)
      have h1 : lower b ∈ extrinsic := by
        rw [← he]
        exact List.mem_map_of_mem hb
      have h2 : ∀ c ∈ extrinsic, c.val < 128 := by decide +kernel
      have h3 := h2 _ h1
      unfold lower at h3
      split at h3
      · omega
      · exact h3
    rw [(hexDecode_iff _ _).2 hk]
    dsimp only
    rw [if_pos hu, if_pos he, (hexDecode_iff _ _).2 hd]
    dsimp only
    rw [if_pos ht]
    exact C218_grammar t d
  | cons m l ih =>
    obtain ⟨x, h1, h2, h3⟩ := hl m (List.mem_cons_self ..)
    show extrinsicData (m :: (l ++ (kind, data) :: r)) = some d ↔ _
    unfold extrinsicData
    rw [(hexDecode_iff _ _).2 h1]
    dsimp only
    rw [if_pos h2, if_neg h3]
    exact ih (fun q hq => hl q (List.mem_cons_of_mem _ hq))

/-- Nothing is executed for messages without such a memo. -/
theorem C218_none (l : List (List Byte × List Byte)) (hl : ∀ m ∈ l, ∀ k, HexOf m.1 k → k.map lower ≠ extrinsic) :
    extrinsicData l = none := by
  induction l with
  | nil => rfl
  | cons m l ih =>
    unfold extrinsicData
    cases h : hexDecode m.1 with
    | none => rfl
    | some k =>
      dsimp only
      split
      · rw [if_neg (hl m (List.mem_cons_self ..) k ((hexDecode_iff _ _).1 h))]
        exact ih (fun q hq => hl q (List.mem_cons_of_mem _ hq))
      · rfl

/-- "ff…ff:7:1207:0:ee…ee" is nonce 7, until block 1207; also with a plus sign, zeros in front and a sixth field; not with a nonce of
`2 ^ 32`. -/
example : parseData (List.replicate 64 102 ++ [58, 55, 58, 49, 50, 48, 55, 58, 48, 58] ++ List.replicate 64 101) =
      some ⟨List.replicate 32 255, 7, 1207, 0, List.replicate 32 238⟩ ∧
    parseData (List.replicate 64 70 ++ [58, 43, 55, 58, 48, 49, 50, 48, 55, 58, 48, 58] ++ List.replicate 64 69 ++ [58, 120]) =
      some ⟨List.replicate 32 255, 7, 1207, 0, List.replicate 32 238⟩ ∧
    parseData (List.replicate 64 102 ++ [58, 52, 50, 57, 52, 57, 54, 55, 50, 57, 54, 58, 49, 58, 48, 58] ++ List.replicate 64 101) = none := by
  decide +kernel

/-- A type in capitals: "EXTRINSIC". -/
example : ∃ k, HexOf (Uri.hex [69, 88, 84, 82, 73, 78, 83, 73, 67]) k ∧ k.map lower = extrinsic :=
  ⟨_, hex_hexOf _, by decide +kernel⟩

/-! ## C219: amounts of the exchange's RPC -/

theorem HexOf.num {t bs : List Byte} (h : HexOf t bs) : ∀ a, HexNum a t (bs.foldl (fun a b => 256 * a + b.val) a) := by
  induction h with
  | nil => exact fun _ => .nil
  | cons hu hv hx _ ih =>
    rename_i x u v r bs _
    intro a
    refine .cons hu (.cons hv ?_)
    have := ih (256 * a + x.val)
    rw [show 256 * a + x.val = 16 * (16 * a + u) + v by omega] at this
    rw [List.foldl_cons, show 256 * a + x.val = 16 * (16 * a + u) + v by omega]
    exact this

theorem HexNum.append {a m n : Nat} {t u : List Byte} (h : HexNum a t m) (h2 : HexNum m u n) : HexNum a (t ++ u) n := by
  induction h with
  | nil => exact h2
  | cons hd _ ih => exact .cons hd (ih h2)

theorem HexDigit.unique {b : Byte} {u v : Nat} (h : HexDigit b u) (h2 : HexDigit b v) : u = v := by
  unfold HexDigit at h h2
  omega

theorem HexNum.unique {a m n : Nat} {t : List Byte} (h : HexNum a t m) (h2 : HexNum a t n) : m = n := by
  induction h with
  | nil => cases h2; rfl
  | cons hd _ ih =>
    cases h2 with
    | cons hd2 h2 =>
      rw [hd2.unique hd] at h2
      exact ih h2

theorem HexNum.bytes : ∀ {t : List Byte} {a n : Nat}, HexNum a t n → t.length % 2 = 0 → ∃ bs, HexOf t bs
  | [], _, _, _, _ => ⟨[], .nil⟩
  | [_], _, _, _, h => by simp at h
  | x :: y :: r, _, _, h, hl => by
    cases h with
    | cons hu h =>
      cases h with
      | cons hv h =>
        obtain ⟨bs, hb⟩ := h.bytes (by simp only [List.length_cons] at hl; omega)
        have h1 := hu.lt
        have h2 := hv.lt
        exact ⟨_, .cons hu hv (ofNat_val (by omega)) hb⟩

/-- Whole numbers below `2 ^ 64` and texts of "0x" and 32 digits are read as what they are; and nothing else is read but texts of any
two characters of one byte and 32 digits. -/
theorem C219_amount_partial : (∀ n, n < U64 → readAmount (ofNumber n) = .ok n) ∧
    (∀ (t : List Byte) (n : Nat), HexNum 0 t n → t.length = 32 → readAmount (.str (48 :: 120 :: t)) = .ok n) ∧
    (∀ s n, readAmount (.str s) = .ok n → ∃ a b t, s = a :: b :: t ∧ HexNum 0 t n ∧ t.length = 32) := by
  refine ⟨fun n hn => ?_, fun t n hn hlen => ?_, fun s n h => ?_⟩
  · unfold ofNumber
    rw [if_pos hn]
    rfl
  · obtain ⟨bs, ht⟩ := hn.bytes (by omega)
    have hb : bs.length = 16 := by
      have := ht.length
      omega
    have hv : bigEndian bs = n := (ht.num 0).unique hn
    have hf : from2 (48 :: 120 :: t) = .ok t := by
      cases ht with
      | nil => cases hb
      | cons hu _ _ _ =>
        show (if starts _ = true then Except.ok _ else .error "Panic") = _
        rw [if_pos]
        unfold starts
        unfold HexDigit at hu
        exact decide_eq_true (by omega)
    unfold readAmount
    dsimp only
    rw [hf]
    simp only [bind_ok, okOr_ok, ensure_ok, pure_ok]
    exact ⟨t, rfl, bs, (hexDecode_iff _ _).2 ht, (), hb, hv⟩
  · unfold readAmount at h
    simp only [bind_ok, okOr_ok, ensure_ok, pure_ok] at h
    obtain ⟨t, ht, bs, hb, _, hl, rfl⟩ := h
    unfold from2 at ht
    split at ht
    · rename_i a b
      cases ht
      have hx := (hexDecode_iff _ _).1 hb
      exact ⟨a, b, [], rfl, hx.num 0, by have := hx.length; omega⟩
    · rename_i a b c r
      split at ht
      · cases ht
        have hx := (hexDecode_iff _ _).1 hb
        exact ⟨a, b, c :: r, rfl, hx.num 0, by have := hx.length; omega⟩
      · cases ht
    · cases ht

/-- Texts of one character, or none, panic; so do those that begin with a character of three bytes. -/
theorem C219_panic_refuted : (∀ s : List Byte, s.length < 2 → readAmount (.str s) = .error "Panic") ∧
    (∀ r : List Byte, readAmount (.str (226 :: 130 :: 172 :: r)) = .error "Panic") := by
  constructor
  · intro s hs
    unfold readAmount
    have : from2 s = .error "Panic" := by
      cases s with
      | nil => rfl
      | cons a s =>
        cases s with
        | nil => rfl
        | cons b s =>
          simp only [List.length_cons] at hs
          omega
    dsimp only
    rw [this]
    rfl
  · intro r
    unfold readAmount from2
    rfl

/-- The two characters in front are not looked at: the decimal text of 34 digits "12" and 31 zeros and "5" is read as five. -/
theorem C219_prefix_refuted : readAmount (.str ([49, 50] ++ List.replicate 31 48 ++ [53])) = .ok 5 := by
  have : hexDecode (List.replicate 31 48 ++ [53]) = some (List.replicate 15 0 ++ [5]) := by decide +kernel
  unfold readAmount
  show (do
    let t ← Except.ok (List.replicate 31 48 ++ [53])
    let bs ← okOr (hexDecode t) "expected hex encoded string"
    ensure (bs.length = 16) "parse big int as u128 failed"
    pure (bigEndian bs)) = (Except.ok 5 : Except Err Nat)
  simp only [bind_ok, okOr_ok, ensure_ok, pure_ok]
  exact ⟨_, rfl, _, this, (), rfl, by decide +kernel⟩

/-- "0x64" is refused, and so are whole numbers from `2 ^ 64` on and whatever the node itself writes. -/
theorem C219_refused_refuted : (readAmount (.str [48, 120, 54, 52])).isOk = false ∧
    (∀ n, U64 ≤ n → (readAmount (ofNumber n)).isOk = false) ∧ (∀ n, (readAmount (writeAmount n)).isOk = false) := by
  refine ⟨by decide +kernel, fun n hn => ?_, fun _ => rfl⟩
  unfold ofNumber
  rw [if_neg (by omega)]
  rfl

/-- A hundred as it must be written. -/
example : (readAmount (.str ([48, 120] ++ List.replicate 30 48 ++ [54, 52]))).toOption = some 100 := by decide +kernel

/-! ## C220: answers of Ethereum nodes -/

theorem decodeHex_hexOf {t bs : List Byte} (h : HexOf t bs) : decodeHex t = .ok bs := by
  induction h with
  | nil => rfl
  | cons hu hv hx _ ih =>
    rename_i a b x u v r bs _
    unfold decodeHex
    have h1 := hu.lt
    have h2 := hv.lt
    have hb : byteOf a b = some x := by
      unfold byteOf
      rw [if_neg (by unfold HexDigit at hu; omega), hexVal_iff.2 hu, hexVal_iff.2 hv]
      exact congrArg some (Fin.ext (by rw [ofNat_val (by omega), hx]))
    rw [hb, ih]
    rfl

theorem decodeHex_length : ∀ {t bs : List Byte}, decodeHex t = .ok bs → t.length = 2 * bs.length
  | [], bs, h => by
    unfold decodeHex at h
    cases h
    rfl
  | [_], bs, h => by
    unfold decodeHex at h
    cases h
  | a :: b :: r, bs, h => by
    unfold decodeHex at h
    split at h
    · cases h
    · simp only [bind_ok, pure_ok] at h
      obtain ⟨cs, hc, rfl⟩ := h
      have := decodeHex_length hc
      simp only [List.length_cons]
      omega

/-- "0x" and the digits of bytes are read as these bytes, and what is written is read back; nothing is read from other JSON than texts
that begin with "0x", as many bytes as there are pairs of characters. -/
theorem C220_bytes_partial : (∀ t bs : List Byte, HexOf t bs → ethCall (.result (.str (48 :: 120 :: t))) = .ok bs) ∧
    (∀ bs, ethCall (.result (writeBytes bs)) = .ok bs) ∧
    (∀ j bs, ethCall (.result j) = .ok bs → ∃ t, j = .str (48 :: 120 :: t) ∧ t.length = 2 * bs.length) := by
  have h1 : ∀ t bs : List Byte, HexOf t bs → ethCall (.result (.str (48 :: 120 :: t))) = .ok bs := by
    intro t bs h
    show (if (48 : Byte).val = 48 ∧ (120 : Byte).val = 120 ∧ t.length % 2 = 0 then decodeHex t else .error "Invalid bytes format") = _
    rw [if_pos ⟨rfl, rfl, by have := h.length; omega⟩]
    exact decodeHex_hexOf h
  refine ⟨h1, fun bs => h1 _ _ (hex_hexOf bs), fun j bs h => ?_⟩
  have h : readBytes j = .ok bs := h
  unfold readBytes at h
  split at h
  · rename_i a b r _
    split at h
    · rename_i hc
      refine ⟨r, ?_, decodeHex_length h⟩
      rw [show a = 48 from Fin.ext hc.1, show b = 120 from Fin.ext hc.2.1]
    · cases h
  · cases h

/-- Whatever text that does not decode, but begins with "0x" and is even, panics. Here are "0xzz" and all that have it in front. -/
theorem C220_panic_refuted (r : List Byte) (h : r.length % 2 = 0) :
    ethCall (.result (.str (48 :: 120 :: 122 :: 122 :: r))) = .error "Panic" := by
  show (if (48 : Byte).val = 48 ∧ (120 : Byte).val = 120 ∧ (r.length + 1 + 1) % 2 = 0 then decodeHex (122 :: 122 :: r)
    else .error "Invalid bytes format") = _
  rw [if_pos ⟨rfl, rfl, by omega⟩]
  rfl

/-- "0x+f" is read as the byte 15. -/
theorem C220_plus_refuted : ethCall (.result (.str [48, 120, 43, 102])) = .ok [15] := by rfl

/-- An error of the node is taken for an empty result. -/
theorem C220_error_refuted (code : Nat) : ethCall (.error code) = .ok [] := rfl

theorem hexNum_value : ∀ (k n : Nat), 0 < k → n < 16 ^ k →
    HexNum 0 (hexNum k n) n ∧ (0 < n → ∃ b r, hexNum k n = b :: r ∧ b ≠ 48)
  | 0, _, h, _ => absurd h (by decide)
  | k + 1, n, _, hn => by
    unfold hexNum
    split
    · rename_i h
      refine ⟨.cons (hexDigit_digit h) ?_, fun h0 => ⟨_, [], rfl, fun e => ?_⟩⟩
      · rw [show 16 * 0 + n = n by omega]
        exact .nil
      · have e := congrArg Fin.val e
        rw [Uri.hexDigit_val h] at e
        have e : (if n < 10 then 48 + n else 87 + n) = 48 := e
        split at e <;> omega
    · rename_i h
      have hk : 0 < k := by
        rcases Nat.eq_zero_or_pos k with rfl | h0
        · simp at hn; omega
        · exact h0
      have hd : n / 16 < 16 ^ k := by
        rw [Nat.pow_succ] at hn
        omega
      obtain ⟨h1, h3⟩ := hexNum_value k (n / 16) hk hd
      have hm : n % 16 < 16 := Nat.mod_lt n (by decide)
      refine ⟨h1.append (.cons (hexDigit_digit hm) ?_), fun _ => ?_⟩
      · rw [show 16 * (n / 16) + n % 16 = n by omega]
        exact .nil
      · obtain ⟨b, r, e, hb⟩ := h3 (by omega)
        exact ⟨b, r ++ [_], by rw [e]; rfl, hb⟩

/-- A block is asked for by "0x" and its number in hexadecimal, without leading zeros, as Ethereum nodes want it. -/
theorem C220_block (n : Nat) (h : n < U64) : ∃ ds, blockParam n = 48 :: 120 :: ds ∧ HexNum 0 ds n ∧
    ds ≠ [] ∧ (0 < n → ∃ b r, ds = b :: r ∧ b ≠ 48) := by
  obtain ⟨h1, h3⟩ := hexNum_value 16 n (by decide) (Nat.lt_of_lt_of_le h (by decide))
  refine ⟨_, rfl, h1, ?_, h3⟩
  rcases Nat.eq_zero_or_pos n with rfl | h0
  · decide +kernel
  · obtain ⟨b, r, e, _⟩ := h3 h0
    rw [e]
    exact List.cons_ne_nil b r

/-- Block 0x5bad55. -/
example : blockParam 6008149 = [48, 120, 53, 98, 97, 100, 53, 53] := by decide +kernel

end Verif.Text
