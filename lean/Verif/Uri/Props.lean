import Verif.Uri.Model

/-!
# What is proved of the URIs of tokens
-/

namespace Verif.Uri

open Abi (Byte)

/-! ## Specification -/

/-- The number that decimal digits stand for. -/
def number (ds : List Byte) : Nat := ds.foldl (fun a b => 10 * a + (b.val - 48)) 0

/-- Texts of decimal digits. -/
def Digits (ds : List Byte) : Prop := ds ≠ [] ∧ ∀ b ∈ ds, 48 ≤ b.val ∧ b.val ≤ 57

/-- A collection exists and has this token. -/
def Exists (s : St) (c n : Nat) : Prop := ∃ k, s.coll c = some k ∧ n ∈ k.tokens

/-! ## Numbers as text -/

theorem digit_val {n : Nat} (h : n < 10) : (Fin.ofNat 256 (48 + n) : Byte).val = 48 + n := by
  show (48 + n) % 256 = 48 + n
  omega

theorem number_snoc (ds : List Byte) (b : Byte) : number (ds ++ [b]) = 10 * number ds + (b.val - 48) := by
  unfold number
  rw [List.foldl_append]
  rfl

theorem decimal_number : ∀ (k n : Nat), 0 < k → n < 10 ^ k → number (decimal k n) = n
  | 0, _, h, _ => absurd h (by decide)
  | k + 1, n, _, hn => by
    unfold decimal
    split
    · rename_i h
      show 10 * 0 + ((Fin.ofNat 256 (48 + n) : Byte).val - 48) = n
      rw [digit_val h]
      omega
    · rename_i h
      have hk : 0 < k := by
        rcases Nat.eq_zero_or_pos k with rfl | h0
        · simp at hn; omega
        · exact h0
      have hd : n / 10 < 10 ^ k := by
        rw [Nat.pow_succ] at hn
        omega
      rw [number_snoc, decimal_number k (n / 10) hk hd, digit_val (Nat.mod_lt n (by decide))]
      omega

theorem decimal_digits : ∀ (k n : Nat), 0 < k → Digits (decimal k n) ∨ k = 0
  | 0, _, _ => .inr rfl
  | k + 1, n, _ => by
    left
    unfold decimal
    split
    · rename_i h
      refine ⟨by simp, fun b hb => ?_⟩
      rw [List.mem_singleton] at hb
      rw [hb, digit_val h]
      omega
    · refine ⟨by simp, fun b hb => ?_⟩
      rw [List.mem_append, List.mem_singleton] at hb
      rcases hb with hb | hb
      · rcases Nat.eq_zero_or_pos k with rfl | h0
        · exact absurd hb (by simp [decimal])
        · rcases decimal_digits k (n / 10) h0 with h | h
          · exact h.2 b hb
          · omega
      · rw [hb, digit_val (Nat.mod_lt n (by decide))]
        omega

/-- Without leading zeros. -/
theorem decimal_lead : ∀ (k n : Nat), 0 < k → 0 < n → n < 10 ^ k → ∃ b r, decimal k n = b :: r ∧ b.val ≠ 48
  | 0, _, h, _, _ => absurd h (by decide)
  | k + 1, n, _, h0, hn => by
    unfold decimal
    split
    · rename_i h
      exact ⟨_, [], rfl, by rw [digit_val h]; omega⟩
    · rename_i h
      have hk : 0 < k := by
        rcases Nat.eq_zero_or_pos k with rfl | h0
        · simp at hn; omega
        · exact h0
      have hd : n / 10 < 10 ^ k := by
        rw [Nat.pow_succ] at hn
        omega
      obtain ⟨b, r, e, hb⟩ := decimal_lead k (n / 10) hk (by omega) hd
      exact ⟨b, r ++ [_], by rw [e]; rfl, hb⟩

theorem u32_digits {n : Nat} (h : n < U32) : n < 10 ^ 10 := Nat.lt_trans h (by decide)

theorem decimal_inj {n m : Nat} (hn : n < U32) (hm : m < U32) (e : decimal 10 n = decimal 10 m) : n = m := by
  rw [← decimal_number 10 n (by decide) (u32_digits hn), e, decimal_number 10 m (by decide) (u32_digits hm)]

theorem utf8_ascii : ∀ (l : List Byte) (k : Nat), l.length ≤ k → (∀ b ∈ l, b.val < 128) → utf8 k l = true
  | [], k, _, _ => by unfold utf8; cases k <;> rfl
  | a :: l, 0, h, _ => absurd h (by simp)
  | a :: l, k + 1, h, ha => by
    unfold utf8
    rw [if_pos (ha a (List.mem_cons_self ..))]
    exact utf8_ascii l k (by simp at h; omega) (fun b hb => ha b (List.mem_cons_of_mem _ hb))

/-! ## Addresses as text -/

theorem hexDigit_val {n : Nat} (h : n < 16) : (hexDigit n).val = if n < 10 then 48 + n else 87 + n := by
  unfold hexDigit
  split
  · show (48 + n) % 256 = 48 + n
    omega
  · show (87 + n) % 256 = 87 + n
    omega

theorem hexDigit_inj {n m : Nat} (hn : n < 16) (hm : m < 16) (e : hexDigit n = hexDigit m) : n = m := by
  have := congrArg Fin.val e
  rw [hexDigit_val hn, hexDigit_val hm] at this
  split at this <;> split at this <;> omega

theorem hex_length : ∀ a : List Byte, (hex a).length = 2 * a.length
  | [] => rfl
  | b :: a => by
    show (hex a).length + 1 + 1 = 2 * (a.length + 1)
    rw [hex_length a]
    omega

theorem hex_inj : ∀ {a b : List Byte}, hex a = hex b → a = b
  | [], [], _ => rfl
  | [], _ :: _, e => by cases e
  | _ :: _, [], e => by cases e
  | x :: a, y :: b, e => by
    injection e with e1 e2
    injection e2 with e2 e3
    have h1 := hexDigit_inj (by omega) (by omega) e1
    have h2 := hexDigit_inj (by omega) (by omega) e2
    rw [hex_inj e3, Fin.ext (a := x) (b := y) (by omega)]

theorem hex_ascii : ∀ (a : List Byte), ∀ b ∈ hex a, b.val < 128
  | [], _, h => by cases h
  | x :: a, b, h => by
    simp only [hex, List.mem_cons] at h
    rcases h with rfl | rfl | h
    · rw [hexDigit_val (by omega)]; split <;> omega
    · rw [hexDigit_val (by omega)]; split <;> omega
    · exact hex_ascii a b h

theorem ethBase_ascii (a : List Byte) : ∀ b ∈ ethBase a, b.val < 128 := by
  intro b hb
  unfold ethBase at hb
  rw [List.mem_append, List.mem_append] at hb
  rcases hb with (hb | hb) | hb
  · have : ∀ b ∈ ([101, 116, 104, 101, 114, 101, 117, 109, 58, 47, 47, 48, 120] : List Byte), b.val < 128 := by decide +kernel
    exact this b hb
  · exact hex_ascii a b hb
  · rw [List.mem_singleton] at hb
    rw [hb]
    decide

theorem ethBase_length (a : List Byte) : (ethBase a).length = 14 + 2 * a.length := by
  unfold ethBase
  simp [hex_length]
  omega

theorem ethBase_inj {a b : List Byte} (h : a.length = b.length) {r t : List Byte} (e : ethBase a ++ r = ethBase b ++ t) :
    a = b ∧ r = t := by
  obtain ⟨h1, h2⟩ := List.append_inj e (by rw [ethBase_length, ethBase_length, h])
  refine ⟨?_, h2⟩
  unfold ethBase at h1
  exact hex_inj (List.append_inj (List.append_inj h1 (by simp [hex_length, h])).1 rfl).2

/-! ## What operations keep of a collection -/

/-- The chain of a collection and that it is for XRPL are kept, and so is its base URI if it is for XRPL or not from here. -/
def Keeps (k k' : Coll) : Prop :=
  k'.chain = k.chain ∧ (k.xrpl = true → k'.xrpl = true) ∧ (k.xrpl = true ∨ k.chain ≠ .root → k'.base = k.base)

theorem Keeps.rfl' (k : Coll) : Keeps k k := ⟨rfl, id, fun _ => rfl⟩

def Fresh (s : St) : Prop := ∀ c, s.nextColl ≤ c → s.coll c = none

theorem keep_upd {s : St} {c : Nat} {k k1 : Coll} (hc : s.coll c = some k) (hk : Keeps k k1) (d : Nat) (q : Coll)
    (hq : s.coll d = some q) : ∃ q', upd s.coll c (some k1) d = some q' ∧ Keeps q q' := by
  by_cases h : d = c
  · subst h
    rw [hc] at hq
    cases hq
    exact ⟨k1, upd_same _ _ _, hk⟩
  · exact ⟨q, by rw [upd_ne _ _ h]; exact hq, .rfl' q⟩

/-- The state after an operation, in the parts that matter for URIs. -/
structure Moves (s s' : St) : Prop where
  fresh : Fresh s → Fresh s'
  keeps : Fresh s → ∀ c k, s.coll c = some k → ∃ k', s'.coll c = some k' ∧ Keeps k k'

theorem Moves.upd {s : St} {c : Nat} {k k1 : Coll} (s' : St) (hc : s.coll c = some k) (hk : Keeps k k1)
    (h1 : s'.coll = Verif.upd s.coll c (some k1)) (h2 : s'.nextColl = s.nextColl) : Moves s s' where
  fresh := by
    intro hf d hd
    rw [h2] at hd
    rw [h1]
    by_cases h : d = c
    · subst h
      rw [hf d hd] at hc
      cases hc
    · rw [upd_ne _ _ h]
      exact hf d hd
  keeps := by
    intro _ d q hq
    rw [h1]
    exact keep_upd hc hk d q hq

theorem Moves.same {s s' : St} (h1 : s'.coll = s.coll) (h2 : s'.nextColl = s.nextColl) : Moves s s' where
  fresh := by
    intro hf d hd
    rw [h2] at hd
    rw [h1]
    exact hf d hd
  keeps := by
    intro _ d q hq
    rw [h1]
    exact ⟨q, hq, .rfl' q⟩

theorem Moves.create {s s' : St} (k : Coll) (h1 : s'.coll = Verif.upd s.coll s.nextColl (some k))
    (h2 : s'.nextColl = s.nextColl + 1) : Moves s s' where
  fresh := by
    intro hf d hd
    rw [h2] at hd
    rw [h1, upd_ne _ _ (by omega)]
    exact hf d (by omega)
  keeps := by
    intro hf d q hq
    have : d ≠ s.nextColl := by
      intro e
      rw [hf d (by omega)] at hq
      cases hq
    rw [h1, upd_ne _ _ this]
    exact ⟨q, hq, .rfl' q⟩

theorem Keeps.trans {a b c : Coll} (h1 : Keeps a b) (h2 : Keeps b c) : Keeps a c := by
  refine ⟨h2.1.trans h1.1, fun h => h2.2.1 (h1.2.1 h), fun h => ?_⟩
  rw [h2.2.2 ?_, h1.2.2 h]
  rcases h with h | h
  · exact .inl (h1.2.1 h)
  · exact .inr (by rw [h1.1]; exact h)

theorem Moves.trans {a b c : St} (h1 : Moves a b) (h2 : Moves b c) : Moves a c where
  fresh := fun hf => h2.fresh (h1.fresh hf)
  keeps := by
    intro hf d q hq
    obtain ⟨q1, e1, k1⟩ := h1.keeps hf d q hq
    obtain ⟨q2, e2, k2⟩ := h2.keeps (h1.fresh hf) d q1 e1
    exact ⟨q2, e2, k1.trans k2⟩

theorem mintBridged_moves (s : St) (c : Nat) (ns : List Nat) : Moves s (mintBridged s c ns) := by
  unfold mintBridged
  split
  · exact .same rfl rfl
  · rename_i k hk
    have hK : Keeps k { k with tokens := k.tokens ++ ns.filter (· ∉ k.tokens) } := ⟨rfl, id, fun _ => rfl⟩
    exact .upd _ hk hK rfl rfl

theorem mintBridged_rest (s : St) (c : Nat) (ns : List Nat) : (mintBridged s c ns).told = s.told ∧
    (mintBridged s c ns).eth = s.eth ∧ (mintBridged s c ns).origin = s.origin ∧ (mintBridged s c ns).xrplMap = s.xrplMap ∧
    (mintBridged s c ns).nextColl = s.nextColl := by
  unfold mintBridged
  split <;> exact ⟨rfl, rfl, rfl, rfl, rfl⟩

/-- Invariants of histories. -/
structure Inv (s : St) : Prop where
  fresh : Fresh s
  told : ∀ c n u, (c, n, u) ∈ s.told → ∃ k, s.coll c = some k ∧ k.xrpl = true ∧ u = tokenUriOf k.base n
  all : ∀ c k n, s.coll c = some k → k.xrpl = true → k.chain = .root → n ∈ k.tokens → (c, n, tokenUriOf k.base n) ∈ s.told
  eth : ∀ c a, s.origin c = some a → a.length = 20 ∧ ∃ k, s.coll c = some k ∧ k.chain = .ethereum ∧ k.base = ethBase a
  map : ∀ c a, s.origin c = some a ↔ s.eth a = some c

/-- Tokens that are told after a move that adds no tokens to collections for XRPL. -/
theorem Inv.of {s s' : St} (hi : Inv s) (hm : Moves s s') (ht : ∃ t, s'.told = s.told ++ t ∧
      ∀ c n u, (c, n, u) ∈ t → ∃ k, s'.coll c = some k ∧ k.xrpl = true ∧ u = tokenUriOf k.base n)
    (ha : ∀ c k n, s'.coll c = some k → k.xrpl = true → k.chain = .root → n ∈ k.tokens → (c, n, tokenUriOf k.base n) ∈ s'.told)
    (ho : s'.origin = s.origin) (he : s'.eth = s.eth) : Inv s' where
  fresh := hm.fresh hi.fresh
  told := by
    intro c n u h
    obtain ⟨t, e, ht⟩ := ht
    rw [e, List.mem_append] at h
    rcases h with h | h
    · obtain ⟨k, h1, h2, h3⟩ := hi.told c n u h
      obtain ⟨k', h4, h5⟩ := hm.keeps hi.fresh c k h1
      exact ⟨k', h4, h5.2.1 h2, by rw [h3, h5.2.2 (.inl h2)]⟩
    · exact ht c n u h
  all := ha
  eth := by
    intro c a h
    rw [ho] at h
    obtain ⟨h0, k, h1, h2, h3⟩ := hi.eth c a h
    obtain ⟨k', h4, h5⟩ := hm.keeps hi.fresh c k h1
    exact ⟨h0, k', h4, by rw [h5.1, h2], by rw [h5.2.2 (.inr (by rw [h2]; decide)), h3]⟩
  map := by
    intro c a
    rw [ho, he]
    exact hi.map c a

/-- An update of one collection that adds no requests. -/
theorem Inv.upd {s : St} {c : Nat} {k k1 : Coll} (s' : St) (hi : Inv s) (hc : s.coll c = some k) (hk : Keeps k k1)
    (h1 : s'.coll = Verif.upd s.coll c (some k1)) (h2 : s'.nextColl = s.nextColl) (ht : s'.told = s.told)
    (ho : s'.origin = s.origin) (he : s'.eth = s.eth)
    (hn : k1.xrpl = true → k1.chain = .root → ∀ n ∈ k1.tokens, (c, n, tokenUriOf k1.base n) ∈ s.told) : Inv s' := by
  refine hi.of (.upd s' hc hk h1 h2) ⟨[], by rw [ht, List.append_nil], fun _ _ _ h => by cases h⟩ ?_ ho he
  intro d q n hq hx hr hmem
  rw [h1] at hq
  rw [ht]
  by_cases h : d = c
  · subst h
    rw [upd_same _ _ _] at hq
    cases hq
    exact hn hx hr n hmem
  · rw [upd_ne _ _ h] at hq
    exact hi.all d q n hq hx hr hmem

theorem Inv.mintBridged {s : St} (hi : Inv s) (c : Nat) (ns : List Nat)
    (hc : ∀ k, s.coll c = some k → k.chain ≠ .root) : Inv (mintBridged s c ns) := by
  unfold Uri.mintBridged
  split
  · exact hi
  · rename_i k hk
    have hK : Keeps k { k with tokens := k.tokens ++ ns.filter (· ∉ k.tokens) } := ⟨rfl, id, fun _ => rfl⟩
    exact hi.upd _ hk hK rfl rfl rfl rfl rfl (fun _ h => absurd h (hc k hk))

/-- A new collection without tokens, or not for XRPL. -/
theorem Inv.create {s : St} (hi : Inv s) (k : Coll) (h : k.xrpl = false ∨ k.tokens = []) : Inv (create s k) := by
  refine hi.of (.create k rfl rfl) ⟨[], by rw [List.append_nil]; rfl, fun _ _ _ h => by cases h⟩ ?_ rfl rfl
  intro d q n hq hx hr hmem
  have hq : Verif.upd s.coll s.nextColl (some k) d = some q := hq
  show _ ∈ s.told
  by_cases hd : d = s.nextColl
  · rw [hd, upd_same _ _ _] at hq
    cases hq
    rcases h with h | h
    · rw [h] at hx
      cases hx
    · rw [h] at hmem
      cases hmem
  · rw [upd_ne _ _ hd] at hq
    exact hi.all d q n hq hx hr hmem

/-- Where bridged tokens of XRPL go. -/
def XrplMapped (s : St) : Prop :=
  ∀ p c, s.xrplMap p = some c → ∃ k, s.coll c = some k ∧ k.chain = .xrpl ∧ k.base = xls20Base

theorem XrplMapped.of {s s' : St} (h : XrplMapped s) (hf : Fresh s) (hm : Moves s s') (e : s'.xrplMap = s.xrplMap) : XrplMapped s' := by
  intro p c hp
  rw [e] at hp
  obtain ⟨k, h1, h2, h3⟩ := h p c hp
  obtain ⟨k', h4, h5⟩ := hm.keeps hf c k h1
  exact ⟨k', h4, by rw [h5.1, h2], by rw [h5.2.2 (.inr (by rw [h2]; decide)), h3]⟩

theorem step_inv {s s' : St} {op : Op} (hi : Inv s) (hx : XrplMapped s) (h : step s op = .ok s') :
    Inv s' ∧ XrplMapped s' ∧ Moves s s' := by
  cases op with
  | create w b x i =>
    simp only [Uri.step, createCollection, bind_ok, ensure_ok, pure_ok] at h
    obtain ⟨_, _, _, _, _, h3, rfl⟩ := h
    refine ⟨hi.create _ ?_, hx.of hi.fresh (.create _ rfl rfl) rfl, .create _ rfl rfl⟩
    rcases h3 with h | h
    · exact .inr (by rw [h]; rfl)
    · exact .inl h
  | setBaseUri w c b =>
    simp only [Uri.step, setBaseUri, bind_ok, ensure_ok, okOr_ok, pure_ok] at h
    obtain ⟨k, hk, _, _, _, h1, _, h2, _, _, rfl⟩ := h
    have hK : Keeps k { k with base := b } := ⟨rfl, id, fun h => by
      rcases h with h | h
      · rw [h1] at h; cases h
      · exact absurd h2 h⟩
    refine ⟨hi.upd _ hk hK rfl rfl rfl rfl rfl ?_, hx.of hi.fresh (.upd _ hk hK rfl rfl) rfl, .upd _ hk hK rfl rfl⟩
    intro h
    have h : k.xrpl = true := h
    rw [h1] at h
    cases h
  | setOwner w c o =>
    simp only [Uri.step, setOwner, bind_ok, ensure_ok, okOr_ok, pure_ok] at h
    obtain ⟨k, hk, _, _, rfl⟩ := h
    have hK : Keeps k { k with owner := o } := ⟨rfl, id, fun _ => rfl⟩
    exact ⟨hi.upd _ hk hK rfl rfl rfl rfl rfl (fun h1 h2 n hn => hi.all c k n hk h1 h2 hn),
      hx.of hi.fresh (.upd _ hk hK rfl rfl) rfl, .upd _ hk hK rfl rfl⟩
  | claim c o =>
    simp only [Uri.step, claim, bind_ok, okOr_ok, pure_ok] at h
    obtain ⟨k, hk, rfl⟩ := h
    have hK : Keeps k { k with owner := o } := ⟨rfl, id, fun _ => rfl⟩
    exact ⟨hi.upd _ hk hK rfl rfl rfl rfl rfl (fun h1 h2 n hn => hi.all c k n hk h1 h2 hn),
      hx.of hi.fresh (.upd _ hk hK rfl rfl) rfl, .upd _ hk hK rfl rfl⟩
  | enable w c =>
    simp only [Uri.step, enable, bind_ok, ensure_ok, okOr_ok, pure_ok] at h
    obtain ⟨k, hk, _, _, _, h1, rfl⟩ := h
    have hK : Keeps k { k with xrpl := true } := ⟨rfl, fun _ => rfl, fun _ => rfl⟩
    refine ⟨hi.upd _ hk hK rfl rfl rfl rfl rfl ?_, hx.of hi.fresh (.upd _ hk hK rfl rfl) rfl, .upd _ hk hK rfl rfl⟩
    intro _ _ n hn
    have hn : n ∈ k.tokens := hn
    rw [h1] at hn
    cases hn
  | mint c q =>
    simp only [Uri.step, mint, bind_ok, ensure_ok, okOr_ok, pure_ok] at h
    obtain ⟨k, hk, _, h0, _, _, rfl⟩ := h
    have hK : Keeps k { k with
      next := k.next + q
      tokens := k.tokens ++ (List.range q).map (k.next + ·) } := ⟨rfl, id, fun _ => rfl⟩
    refine ⟨hi.of (.upd _ hk hK rfl rfl) ⟨_, rfl, ?_⟩ ?_ rfl rfl, hx.of hi.fresh (.upd _ hk hK rfl rfl) rfl, .upd _ hk hK rfl rfl⟩
    · intro d n u hd
      split at hd
      · rename_i hx
        simp only [requests, List.mem_map, Prod.mk.injEq] at hd
        obtain ⟨m, _, rfl, rfl, rfl⟩ := hd
        exact ⟨_, upd_same _ _ _, hx, rfl⟩
      · cases hd
    · intro d p n hq hx hr hmem
      have hq : Verif.upd s.coll c (some { k with
        next := k.next + q
        tokens := k.tokens ++ (List.range q).map (k.next + ·) }) d = some p := hq
      show _ ∈ s.told ++ _
      rw [List.mem_append]
      by_cases h : d = c
      · subst h
        rw [upd_same _ _ _] at hq
        cases hq
        have hx : k.xrpl = true := hx
        rw [if_pos hx]
        rcases List.mem_append.1 hmem with hm | hm
        · exact .inl (hi.all d k n hk hx hr hm)
        · exact .inr (List.mem_map.2 ⟨n, hm, rfl⟩)
      · rw [upd_ne _ _ h] at hq
        exact .inl (hi.all d p n hq hx hr hmem)
  | burn c m =>
    simp only [Uri.step, burn, bind_ok, ensure_ok, okOr_ok, pure_ok] at h
    obtain ⟨k, hk, _, _, rfl⟩ := h
    have hK : Keeps k { k with tokens := k.tokens.filter (· ≠ m) } := ⟨rfl, id, fun _ => rfl⟩
    exact ⟨hi.upd _ hk hK rfl rfl rfl rfl rfl (fun h1 h2 n hn => hi.all c k n hk h1 h2 (List.mem_filter.1 hn).1),
      hx.of hi.fresh (.upd _ hk hK rfl rfl) rfl, .upd _ hk hK rfl rfl⟩
  | reRequest w c ns =>
    simp only [Uri.step, reRequest, bind_ok, ensure_ok, okOr_ok, pure_ok] at h
    obtain ⟨k, hk, _, _, _, h1, _, _, rfl⟩ := h
    refine ⟨hi.of (.same rfl rfl) ⟨_, rfl, ?_⟩ ?_ rfl rfl, hx.of hi.fresh (.same rfl rfl) rfl, .same rfl rfl⟩
    · intro d n u hd
      simp only [requests, List.mem_map, Prod.mk.injEq] at hd
      obtain ⟨m, _, rfl, rfl, rfl⟩ := hd
      exact ⟨k, hk, h1, rfl⟩
    · intro d p n hq hx hr hmem
      exact List.mem_append_left _ (hi.all d p n hq hx hr hmem)
  | depositEth p a ns =>
    simp only [Uri.step, depositEth, bind_ok, ensure_ok] at h
    obtain ⟨_, h20, _, _, h⟩ := h
    cases ha : s.eth a with
    | some c =>
      rw [ha] at h
      simp only [pure_ok] at h
      subst h
      obtain ⟨_, k, h1, h2, _⟩ := hi.eth c a ((hi.map c a).2 ha)
      refine ⟨hi.mintBridged c ns (fun q hq => ?_), hx.of hi.fresh (mintBridged_moves ..) (mintBridged_rest s c ns).2.2.2.1, mintBridged_moves ..⟩
      rw [h1] at hq
      cases hq
      rw [h2]
      decide
    | none =>
      rw [ha] at h
      simp only [pure_ok] at h
      subst h
      have hc := hi.create ⟨p, ethBase a, .ethereum, false, 0, []⟩ (.inl rfl)
      have hi1 : Inv { create s ⟨p, ethBase a, .ethereum, false, 0, []⟩ with
          eth := Verif.upd s.eth a (some s.nextColl)
          origin := Verif.upd s.origin s.nextColl (some a) } := by
        refine ⟨hc.fresh, hc.told, hc.all, ?_, ?_⟩
        · intro c b hb
          have hb : Verif.upd s.origin s.nextColl (some a) c = some b := hb
          by_cases h : c = s.nextColl
          · rw [h, upd_same _ _ _] at hb
            cases hb
            exact ⟨h20, _, by rw [h]; exact upd_same _ _ _, rfl, rfl⟩
          · rw [upd_ne _ _ h] at hb
            exact hc.eth c b hb
        · intro c b
          show Verif.upd s.origin s.nextColl (some a) c = some b ↔ Verif.upd s.eth a (some s.nextColl) b = some c
          by_cases h : c = s.nextColl
          · have h0 : s.origin s.nextColl = none := by
              cases ho : s.origin s.nextColl with
              | none => rfl
              | some x =>
                obtain ⟨_, k, h1, _⟩ := hi.eth _ x ho
                rw [hi.fresh _ (Nat.le_refl _)] at h1
                cases h1
            rw [h, upd_same _ _ _]
            by_cases hb : b = a
            · rw [hb, upd_same _ _ _]
              simp
            · rw [upd_ne _ _ hb, ← hi.map, h0]
              simp [Ne.symm hb]
          · rw [upd_ne _ _ h]
            by_cases hb : b = a
            · rw [hb, upd_same _ _ _, hi.map, ha]
              simp [Ne.symm h]
            · rw [upd_ne _ _ hb]
              exact hi.map c b
      have m1 : Moves s { create s ⟨p, ethBase a, .ethereum, false, 0, []⟩ with
          eth := Verif.upd s.eth a (some s.nextColl)
          origin := Verif.upd s.origin s.nextColl (some a) } := .create _ rfl rfl
      refine ⟨hi1.mintBridged _ ns (fun q hq => ?_), hx.of hi.fresh (m1.trans (mintBridged_moves ..)) (mintBridged_rest ..).2.2.2.1,
        m1.trans (mintBridged_moves ..)⟩
      have hq : Verif.upd s.coll s.nextColl (some ⟨p, ethBase a, .ethereum, false, 0, []⟩) s.nextColl = some q := hq
      rw [upd_same _ _ _] at hq
      cases hq
      show Chain.ethereum ≠ .root
      decide
  | depositXrpl p i t n =>
    simp only [Uri.step, depositXrpl, bind_ok, ensure_ok] at h
    obtain ⟨_, _, h⟩ := h
    cases ha : s.xrplMap (i, t) with
    | some c =>
      rw [ha] at h
      simp only [pure_ok] at h
      subst h
      obtain ⟨k, h1, h2, _⟩ := hx (i, t) c ha
      refine ⟨hi.mintBridged c [n] (fun q hq => ?_), hx.of hi.fresh (mintBridged_moves ..) (mintBridged_rest s c [n]).2.2.2.1, mintBridged_moves ..⟩
      rw [h1] at hq
      cases hq
      rw [h2]
      decide
    | none =>
      rw [ha] at h
      simp only [pure_ok] at h
      subst h
      have hc := hi.create ⟨p, xls20Base, .xrpl, true, 0, []⟩ (.inr rfl)
      have hi1 : Inv { create s ⟨p, xls20Base, .xrpl, true, 0, []⟩ with
          xrplMap := Verif.upd s.xrplMap (i, t) (some s.nextColl) } := ⟨hc.fresh, hc.told, hc.all, hc.eth, hc.map⟩
      have m1 : Moves s { create s ⟨p, xls20Base, .xrpl, true, 0, []⟩ with
          xrplMap := Verif.upd s.xrplMap (i, t) (some s.nextColl) } := .create _ rfl rfl
      have hx1 : XrplMapped { create s ⟨p, xls20Base, .xrpl, true, 0, []⟩ with
          xrplMap := Verif.upd s.xrplMap (i, t) (some s.nextColl) } := by
        intro r c hr
        have hr : Verif.upd s.xrplMap (i, t) (some s.nextColl) r = some c := hr
        by_cases h : r = (i, t)
        · rw [h, upd_same _ _ _] at hr
          cases hr
          exact ⟨_, upd_same _ _ _, rfl, rfl⟩
        · rw [upd_ne _ _ h] at hr
          obtain ⟨k, h1, h2, h3⟩ := hx r c hr
          obtain ⟨k', h4, h5⟩ := m1.keeps hi.fresh c k h1
          exact ⟨k', h4, by rw [h5.1, h2], by rw [h5.2.2 (.inr (by rw [h2]; decide)), h3]⟩
      refine ⟨hi1.mintBridged _ [n] (fun q hq => ?_), hx1.of hi1.fresh (mintBridged_moves ..) (mintBridged_rest ..).2.2.2.1,
        m1.trans (mintBridged_moves ..)⟩
      have hq : Verif.upd s.coll s.nextColl (some ⟨p, xls20Base, .xrpl, true, 0, []⟩) s.nextColl = some q := hq
      rw [upd_same _ _ _] at hq
      cases hq
      show Chain.xrpl ≠ .root
      decide
  | setSft w c b =>
    simp only [Uri.step, setSft, bind_ok, ensure_ok] at h
    obtain ⟨_, _, h⟩ := h
    have key : s'.coll = s.coll ∧ s'.nextColl = s.nextColl ∧ s'.told = s.told ∧ s'.origin = s.origin ∧ s'.eth = s.eth ∧
        s'.xrplMap = s.xrplMap := by
      split at h
      · simp only [pure_ok] at h
        subst h
        exact ⟨rfl, rfl, rfl, rfl, rfl, rfl⟩
      · simp only [bind_ok, ensure_ok, pure_ok] at h
        obtain ⟨_, _, rfl⟩ := h
        exact ⟨rfl, rfl, rfl, rfl, rfl, rfl⟩
    obtain ⟨e1, e2, e3, e4, e5, e6⟩ := key
    refine ⟨hi.of (.same e1 e2) ⟨[], by rw [e3, List.append_nil], fun _ _ _ h => by cases h⟩ ?_ e4 e5, hx.of hi.fresh (.same e1 e2) e6,
      .same e1 e2⟩
    intro d q n hq h1 h2 h3
    rw [e1] at hq
    rw [e3]
    exact hi.all d q n hq h1 h2 h3

theorem reach_inv {s : St} (h : Reach s) : Inv s ∧ XrplMapped s := by
  induction h with
  | init => exact ⟨⟨fun _ _ => rfl, (fun _ _ _ h => nomatch h), (fun _ _ _ h => nomatch h), (fun _ _ h => nomatch h),
      fun _ _ => ⟨(fun h => nomatch h), (fun h => nomatch h)⟩⟩, (fun _ _ h => nomatch h)⟩
  | step _ h ih =>
    obtain ⟨h1, h2, _⟩ := step_inv ih.1 ih.2 h
    exact ⟨h1, h2⟩

/-! ## C214: the URI of a token is the base URI of its collection and its serial number -/

/-- What is asked for with a serial number, through either contract, is the base URI and the decimal number, if the base URI is text. -/
theorem C214_uri_partial (s : St) (c n : Nat) :
    (∀ k, s.coll c = some k → utf8 k.base.length k.base = true → n < U32 →
      ∃ ds, erc721Uri s c n = .ok (k.base ++ ds) ∧ Digits ds ∧ number ds = n ∧ (0 < n → ds.head?.map Fin.val ≠ some 48)) ∧
    (∀ k, s.sft c = some k → utf8 k.2.length k.2 = true → n < U32 →
      ∃ ds, erc1155Uri s c n = .ok (k.2 ++ ds) ∧ Digits ds ∧ number ds = n ∧ (0 < n → ds.head?.map Fin.val ≠ some 48)) ∧
    (U32 ≤ n → (erc721Uri s c n).isOk = false ∧ (erc1155Uri s c n).isOk = false) := by
  have hd : Digits (decimal 10 n) := by
    rcases decimal_digits 10 n (by decide) with h | h
    · exact h
    · cases h
  have hl : n < U32 → 0 < n → (decimal 10 n).head?.map Fin.val ≠ some 48 := by
    intro hn h0
    obtain ⟨b, r, e, hb⟩ := decimal_lead 10 n (by decide) h0 (u32_digits hn)
    rw [e]
    intro h
    injection h with h
    exact hb h
  refine ⟨fun k hk hu hn => ⟨decimal 10 n, ?_, hd, decimal_number 10 n (by decide) (u32_digits hn), hl hn⟩,
    fun k hk hu hn => ⟨decimal 10 n, ?_, hd, decimal_number 10 n (by decide) (u32_digits hn), hl hn⟩, fun hn => ⟨?_, ?_⟩⟩
  · simp only [erc721Uri, bind_ok, ensure_ok, pure_ok]
    refine ⟨(), hn, ?_⟩
    unfold tokenUri
    rw [hk]
    show tokenUriOf k.base n = _
    unfold tokenUriOf
    rw [if_pos hu]
  · simp only [erc1155Uri, bind_ok, ensure_ok, pure_ok]
    refine ⟨(), hn, ?_⟩
    rw [hk]
    show tokenUriOf k.2 n = _
    unfold tokenUriOf
    rw [if_pos hu]
  · unfold erc721Uri ensure
    rw [if_neg (by omega)]
    rfl
  · unfold erc1155Uri ensure
    rw [if_neg (by omega)]
    rfl

/-- Tokens of the same collection have different URIs, whatever the base URI is. -/
theorem C214_distinct (s : St) (c n m : Nat) (hn : n < U32) (hm : m < U32) (h : n ≠ m) :
    (s.coll c ≠ none → erc721Uri s c n ≠ erc721Uri s c m) ∧ (s.sft c ≠ none → erc1155Uri s c n ≠ erc1155Uri s c m) := by
  have key : ∀ b : List Byte, tokenUriOf b n ≠ tokenUriOf b m := by
    intro b e
    unfold tokenUriOf at e
    exact h (decimal_inj hn hm (List.append_cancel_left e))
  refine ⟨fun hc e => ?_, fun hc e => ?_⟩
  · unfold erc721Uri ensure at e
    rw [if_pos hn, if_pos hm] at e
    have e : (Except.ok (tokenUri s c n) : Except Err _) = .ok (tokenUri s c m) := e
    injection e with e
    unfold tokenUri at e
    cases hk : s.coll c with
    | none => exact hc hk
    | some k =>
      rw [hk] at e
      exact key _ e
  · cases hk : s.sft c with
    | none => exact hc hk
    | some k =>
      unfold erc1155Uri ensure at e
      rw [if_pos hn, if_pos hm, hk] at e
      have e : (Except.ok (tokenUriOf k.2 n) : Except Err _) = .ok (tokenUriOf k.2 m) := e
      injection e with e
      exact key _ e

/-- Who sets the base URI, of which collections, and what is then shown. -/
theorem C214_set {s s' : St} (who c : Nat) (base : List Byte) :
    ((∃ s', step s (.setBaseUri who c base) = .ok s') ↔
      ∃ k, s.coll c = some k ∧ k.owner = who ∧ k.xrpl = false ∧ k.chain = .root ∧ base.length ≤ 200) ∧
    (step s (.setBaseUri who c base) = .ok s' →
      (∀ n, tokenUri s' c n = tokenUriOf base n) ∧ (∀ d, d ≠ c → ∀ n, tokenUri s' d n = tokenUri s d n) ∧
      ∀ d n, Exists s' d n ↔ Exists s d n) := by
  constructor
  · constructor
    · rintro ⟨s', h⟩
      simp only [Uri.step, setBaseUri, bind_ok, ensure_ok, okOr_ok, pure_ok] at h
      obtain ⟨k, hk, _, h0, _, h1, _, h2, _, h3, _⟩ := h
      exact ⟨k, hk, h0, h1, h2, h3⟩
    · rintro ⟨k, hk, h0, h1, h2, h3⟩
      refine ⟨{ s with coll := upd s.coll c (some { k with base := base }) }, ?_⟩
      simp only [Uri.step, setBaseUri, bind_ok, ensure_ok, okOr_ok, pure_ok]
      exact ⟨k, hk, (), h0, (), h1, (), h2, (), h3, rfl⟩
  · intro h
    simp only [Uri.step, setBaseUri, bind_ok, ensure_ok, okOr_ok, pure_ok] at h
    obtain ⟨k, hk, _, h0, _, h1, _, h2, _, h3, rfl⟩ := h
    refine ⟨fun n => ?_, fun d hd n => ?_, fun d n => ?_⟩
    · unfold tokenUri
      dsimp only
      rw [upd_same _ _ _]
    · unfold tokenUri
      dsimp only
      rw [upd_ne _ _ hd]
    · unfold Exists
      dsimp only
      by_cases hd : d = c
      · subst hd
        rw [upd_same _ _ _, hk]
        constructor
        · rintro ⟨q, e, hq⟩
          cases e
          exact ⟨k, rfl, hq⟩
        · rintro ⟨q, e, hq⟩
          cases e
          exact ⟨_, rfl, hq⟩
      · rw [upd_ne _ _ hd]

/-- Base URIs that are not text are accepted, and then not shown: here the token 7 of "https://é/", in Latin-1, is at "7". -/
theorem C214_base_refuted : ∃ s, Reach s ∧ ∃ k, s.coll 0 = some k ∧ Exists s 0 7 ∧ k.base ≠ [] ∧
    tokenUri s 0 7 = [55] ∧ ¬ k.base <+: tokenUri s 0 7 := by
  have h : (exec init [.create 1 [104, 116, 116, 112, 115, 58, 47, 47, 233, 47] false 8]).isSome = true := by decide +kernel
  obtain ⟨s, hs⟩ := Option.isSome_iff_exists.1 h
  refine ⟨s, exec_reach _ .init hs, ?_⟩
  have e : s = create init ⟨1, [104, 116, 116, 112, 115, 58, 47, 47, 233, 47], .root, false, 8, List.range 8⟩ := by
    have : exec init [.create 1 [104, 116, 116, 112, 115, 58, 47, 47, 233, 47] false 8] =
      some (create init ⟨1, [104, 116, 116, 112, 115, 58, 47, 47, 233, 47], .root, false, 8, List.range 8⟩) := rfl
    rw [this] at hs
    exact (Option.some.inj hs).symm
  subst e
  refine ⟨_, rfl, ⟨_, rfl, by decide⟩, by decide, by decide +kernel, by decide +kernel⟩

/-- Tokens that never existed have URIs, of collections that do and of those that do not: ERC-721 asks that the call fails. -/
theorem C214_absent_refuted : (∀ c n, n < U32 → (erc721Uri init c n).isOk = true ∧ (erc1155Uri init c n).isOk = true) ∧
    ∃ s, Reach s ∧ ¬ Exists s 0 5 ∧ erc721Uri s 0 5 = .ok [104, 47, 53] := by
  constructor
  · intro c n hn
    unfold erc721Uri erc1155Uri ensure
    rw [if_pos hn, if_pos hn]
    exact ⟨rfl, rfl⟩
  · refine ⟨create init ⟨1, [104, 47], .root, false, 2, List.range 2⟩, .step (op := .create 1 [104, 47] false 2) .init rfl, ?_, ?_⟩
    · rintro ⟨k, hk, h⟩
      cases hk
      exact absurd h (by decide)
    · have : tokenUri (create init ⟨1, [104, 47], .root, false, 2, List.range 2⟩) 0 5 = [104, 47, 53] := by decide +kernel
      unfold erc721Uri ensure
      rw [if_pos (by decide), this]
      rfl

/-! ## C215: what relayers are told to mint on XRPL -/

/-- The URI a relayer was told is the one that is shown, now and (as the state is any that is reached) ever after. -/
theorem C215_told {s : St} (h : Reach s) {c n : Nat} {u : List Byte} (ht : (c, n, u) ∈ s.told) : tokenUri s c n = u := by
  obtain ⟨k, h1, _, h3⟩ := (reach_inv h).1.told c n u ht
  unfold tokenUri
  rw [h1, h3]

/-- What was told stays told. -/
theorem C215_grows {s s' : St} {op : Op} (h : step s op = .ok s') : s.told <+: s'.told := by
  cases op with
  | create w b x i =>
    simp only [Uri.step, createCollection, bind_ok, ensure_ok, pure_ok] at h
    obtain ⟨_, _, _, _, _, _, rfl⟩ := h
    exact List.prefix_refl _
  | setBaseUri w c b =>
    simp only [Uri.step, setBaseUri, bind_ok, ensure_ok, okOr_ok, pure_ok] at h
    obtain ⟨k, hk, _, _, _, _, _, _, _, _, rfl⟩ := h
    exact List.prefix_refl _
  | setOwner w c o =>
    simp only [Uri.step, setOwner, bind_ok, ensure_ok, okOr_ok, pure_ok] at h
    obtain ⟨k, hk, _, _, rfl⟩ := h
    exact List.prefix_refl _
  | claim c o =>
    simp only [Uri.step, claim, bind_ok, okOr_ok, pure_ok] at h
    obtain ⟨k, hk, rfl⟩ := h
    exact List.prefix_refl _
  | enable w c =>
    simp only [Uri.step, enable, bind_ok, ensure_ok, okOr_ok, pure_ok] at h
    obtain ⟨k, hk, _, _, _, _, rfl⟩ := h
    exact List.prefix_refl _
  | mint c q =>
    simp only [Uri.step, mint, bind_ok, ensure_ok, okOr_ok, pure_ok] at h
    obtain ⟨k, hk, _, _, _, _, rfl⟩ := h
    exact List.prefix_append ..
  | burn c m =>
    simp only [Uri.step, burn, bind_ok, ensure_ok, okOr_ok, pure_ok] at h
    obtain ⟨k, hk, _, _, rfl⟩ := h
    exact List.prefix_refl _
  | reRequest w c ns =>
    simp only [Uri.step, reRequest, bind_ok, ensure_ok, okOr_ok, pure_ok] at h
    obtain ⟨k, hk, _, _, _, _, _, _, rfl⟩ := h
    exact List.prefix_append ..
  | depositEth p a ns =>
    simp only [Uri.step, depositEth, bind_ok, ensure_ok] at h
    obtain ⟨_, _, _, _, h⟩ := h
    split at h <;> simp only [pure_ok] at h <;> subst h <;> rw [(mintBridged_rest ..).1] <;> exact List.prefix_refl _
  | depositXrpl p i t n =>
    simp only [Uri.step, depositXrpl, bind_ok, ensure_ok] at h
    obtain ⟨_, _, h⟩ := h
    split at h <;> simp only [pure_ok] at h <;> subst h <;> rw [(mintBridged_rest ..).1] <;> exact List.prefix_refl _
  | setSft w c b =>
    simp only [Uri.step, setSft, bind_ok, ensure_ok] at h
    obtain ⟨_, _, h⟩ := h
    split at h
    · simp only [pure_ok] at h
      subst h
      exact List.prefix_refl _
    · simp only [bind_ok, ensure_ok, pure_ok] at h
      obtain ⟨_, _, rfl⟩ := h
      exact List.prefix_refl _

/-- Relayers were told to mint every token there is of a collection of this chain that is for XRPL. -/
theorem C215_all {s : St} (h : Reach s) {c n : Nat} {k : Coll} (hc : s.coll c = some k) (hx : k.xrpl = true) (hr : k.chain = .root)
    (hn : n ∈ k.tokens) : (c, n, tokenUri s c n) ∈ s.told := by
  have := (reach_inv h).1.all c k n hc hx hr hn
  unfold tokenUri
  rw [hc]
  exact this

/-- The URIs of a collection for XRPL, or from another chain, never change. -/
theorem C215_fixed {s s' : St} {op : Op} (h : Reach s) (hs : step s op = .ok s') {c : Nat} {k : Coll} (hc : s.coll c = some k)
    (hx : k.xrpl = true ∨ k.chain ≠ .root) : (∀ n, tokenUri s' c n = tokenUri s c n) ∧
      ∃ k', s'.coll c = some k' ∧ (k'.xrpl = true ∨ k'.chain ≠ .root) := by
  obtain ⟨h1, h2⟩ := reach_inv h
  obtain ⟨k', h3, h4⟩ := (step_inv h1 h2 hs).2.2.keeps h1.fresh c k hc
  refine ⟨fun n => ?_, k', h3, ?_⟩
  · unfold tokenUri
    rw [h3, hc]
    show tokenUriOf k'.base n = tokenUriOf k.base n
    rw [h4.2.2 hx]
  · rcases hx with hx | hx
    · exact .inl (h4.2.1 hx)
    · exact .inr (by rw [h4.1]; exact hx)

/-- The hypotheses are met: a collection is made, gets a base URI, is made one for XRPL, and tokens are minted and requested again. -/
example : (exec init [.create 1 [104, 47] false 0, .setBaseUri 1 0 [105, 47], .enable 1 0, .mint 0 2, .burn 0 0, .reRequest 1 0 [1]]).map
    (fun s => (s.told, tokenUri s 0 1)) =
    some ([(0, 0, [105, 47, 48]), (0, 1, [105, 47, 49]), (0, 1, [105, 47, 49])], [105, 47, 49]) := by decide +kernel

/-- The base URI can no longer be set then, and one for XRPL is not made of a collection with tokens. -/
example : exec init [.create 1 [104, 47] false 0, .enable 1 0, .setBaseUri 1 0 [105, 47]] = none ∧
    exec init [.create 1 [104, 47] false 1, .enable 1 0] = none ∧ exec init [.create 1 [104, 47] true 1] = none := by
  refine ⟨rfl, rfl, rfl⟩

/-! ## C216: bridged tokens say where they are from -/

/-- Tokens from Ethereum: the URI is one for this address and number only, forever. -/
theorem C216_ethereum_partial {s : St} (h : Reach s) {a : List Byte} {c : Nat} (ha : s.eth a = some c) :
    (∀ n, tokenUri s c n = ethBase a ++ decimal 10 n) ∧
    ∀ b d n m, s.eth b = some d → n < U32 → m < U32 → tokenUri s c n = tokenUri s d m → a = b ∧ c = d ∧ n = m := by
  obtain ⟨hi, _⟩ := reach_inv h
  have key : ∀ b d, s.eth b = some d → b.length = 20 ∧ ∀ n, tokenUri s d n = ethBase b ++ decimal 10 n := by
    intro b d hb
    obtain ⟨h0, k, h1, _, h3⟩ := hi.eth d b ((hi.map d b).2 hb)
    refine ⟨h0, fun n => ?_⟩
    unfold tokenUri
    rw [h1]
    show tokenUriOf k.base n = _
    unfold tokenUriOf
    rw [h3, if_pos (utf8_ascii _ _ (Nat.le_refl _) (ethBase_ascii b))]
  obtain ⟨h0, h1⟩ := key a c ha
  refine ⟨h1, fun b d n m hb hn hm e => ?_⟩
  obtain ⟨h2, h3⟩ := key b d hb
  rw [h1, h3] at e
  obtain ⟨e1, e2⟩ := ethBase_inj (h0.trans h2.symm) e
  subst e1
  rw [ha] at hb
  exact ⟨rfl, Option.some.inj hb, decimal_inj hn hm e2⟩

/-- Tokens from XRPL: all that is shown is the number within a collection. -/
theorem C216_xrpl_partial {s : St} (h : Reach s) {p : Nat × Nat} {c : Nat} (hp : s.xrplMap p = some c) (n : Nat) :
    tokenUri s c n = xls20Base ++ decimal 10 n := by
  obtain ⟨k, h1, _, h3⟩ := (reach_inv h).2 p c hp
  unfold tokenUri
  rw [h1]
  show tokenUriOf k.base n = _
  unfold tokenUriOf
  rw [h3, if_pos (by decide)]

/-- Tokens of two issuers, with the same URI. -/
theorem C216_xrpl_refuted : ∃ s, Reach s ∧ s.xrplMap (1, 0) = some 0 ∧ s.xrplMap (2, 0) = some 1 ∧ Exists s 0 9 ∧ Exists s 1 9 ∧
    tokenUri s 0 9 = tokenUri s 1 9 := by
  have h : (exec init [.depositXrpl 7 1 0 9, .depositXrpl 7 2 0 9]).isSome = true := by decide +kernel
  obtain ⟨s, hs⟩ := Option.isSome_iff_exists.1 h
  have hr := exec_reach _ .init hs
  have e : (exec init [.depositXrpl 7 1 0 9, .depositXrpl 7 2 0 9]).map (fun s => (s.xrplMap (1, 0), s.xrplMap (2, 0),
      (s.coll 0).map Coll.tokens, (s.coll 1).map Coll.tokens)) = some (some 0, some 1, some [9], some [9]) := by decide +kernel
  rw [hs] at e
  have e := Option.some.inj e
  simp only [Prod.mk.injEq] at e
  obtain ⟨e1, e2, e3, e4⟩ := e
  refine ⟨s, hr, e1, e2, ?_, ?_, by rw [C216_xrpl_partial hr e1, C216_xrpl_partial hr e2]⟩
  · obtain ⟨k, h1, h2⟩ := Option.map_eq_some_iff.1 e3
    exact ⟨k, h1, by rw [h2]; decide⟩
  · obtain ⟨k, h1, h2⟩ := Option.map_eq_some_iff.1 e4
    exact ⟨k, h1, by rw [h2]; decide⟩

/-- The hypotheses are met: tokens 3 and 4 of the address 0x0102…14 are deposited, and 3 again of another. -/
example : (exec init [.depositEth 7 ((List.range 20).map (fun i => Fin.ofNat 256 (i + 1))) [3, 4],
      .depositEth 7 (List.replicate 20 255) [3]]).map
    (fun s => (s.eth (List.replicate 20 255), tokenUri s 1 3)) = some (some 1,
      [101, 116, 104, 101, 114, 101, 117, 109, 58, 47, 47, 48, 120] ++ List.replicate 40 102 ++ [47, 51]) := by decide +kernel

/-- Text as the core library has it: two, three and four bytes; not cut, too long, or of a surrogate. -/
example : utf8 2 [195, 169] = true ∧ utf8 3 [226, 130, 172] = true ∧ utf8 4 [240, 159, 152, 128] = true ∧ utf8 1 [195] = false ∧
    utf8 2 [192, 128] = false ∧ utf8 3 [237, 160, 128] = false ∧ utf8 3 [224, 159, 128] = false ∧ utf8 4 [244, 144, 128, 128] = false := by
  decide +kernel

end Verif.Uri
