import Verif.Sign.Spec
import Mathlib.Data.Nat.Digits.Lemmas

/-!
# Lemmas about signed messages
-/

namespace Verif.Sign

theorem decimal_length_mono {a b : Nat} (h : a ≤ b) : (decimal a).length ≤ (decimal b).length := by
  have hm := Nat.le_length_digits_le 10 a b h
  unfold decimal
  by_cases ha : a = 0
  · rw [if_pos ha]
    by_cases hb : b = 0
    · rw [if_pos hb]
    · rw [if_neg hb]
      have : 1 ≤ (Nat.digits 10 b).length := by
        have h1 := Nat.le_length_digits_le 10 1 b (by omega)
        simpa using h1
      simpa using this
  · rw [if_neg ha, if_neg (by omega)]
    simpa using hm

theorem decimal_pos (n : Nat) : 1 ≤ (decimal n).length :=
  Nat.le_trans (by decide) (decimal_length_mono (Nat.zero_le n))

theorem personal_length (m : Bytes) : (personal m).length = 26 + (decimal m.length).length + m.length := by
  unfold personal
  rw [List.length_append, List.length_append]
  rfl

/-- The text that is signed determines the message: the length written in front cannot be confused with the
message. -/
theorem personal_inj {m m' : Bytes} (h : personal m = personal m') : m = m' := by
  have hl := congrArg List.length h
  rw [personal_length, personal_length] at hl
  have : m.length = m'.length := by
    rcases Nat.le_total m.length m'.length with hle | hle <;>
    · have := decimal_length_mono hle
      omega
  unfold personal at h
  rw [this] at h
  exact List.append_cancel_left h

theorem personal_head (m : Bytes) : ∃ l, personal m = 25 :: 69 :: l := ⟨_, rfl⟩

theorem personal_long (m : Bytes) : (personal m).length ≠ 32 ∨ m.length ≤ 5 := by
  rw [personal_length]
  have := decimal_pos m.length
  omega

theorem Tx.WF.length {t : Tx} (h : t.WF) : 74 ≤ t.encode.length := by
  unfold Tx.encode
  simp only [List.length_cons, List.length_append, h.spec, h.txv, h.genesis, h.era]
  omega

/-- The message of a transaction is its encoding or a hash of 32 bytes. -/
theorem message_cases (c : Cfg) {t : Tx} (h : t.WF) :
    (t.message c = t.encode ∧ 74 ≤ t.encode.length ∧ t.encode.length ≤ 256) ∨
    (t.message c = c.blake t.encode ∧ 256 < t.encode.length ∧ (t.message c).length = 32) := by
  have := h.length
  unfold Tx.message
  split
  · rename_i hl; exact Or.inr ⟨rfl, hl, c.blake_len _⟩
  · exact Or.inl ⟨rfl, this, by omega⟩

theorem message_length (c : Cfg) {t : Tx} (h : t.WF) : 32 ≤ (t.message c).length ∧ (t.message c).length ≤ 256 := by
  rcases message_cases c h with ⟨e, h1, h2⟩ | ⟨_, _, h2⟩
  · rw [e]; omega
  · omega

/-- No message of a transaction reads like the input of a text signature. -/
theorem message_ne_personal (c : Cfg) {t : Tx} (h : t.WF) {m : Bytes} (hm : 6 ≤ m.length) :
    t.message c ≠ personal m := by
  intro e
  rcases message_cases c h with ⟨e1, h1, h2⟩ | ⟨_, _, h2⟩
  · rw [e1] at e
    obtain ⟨l, hl⟩ := personal_head m
    rw [hl] at e
    unfold Tx.encode at e
    obtain ⟨p1, p2⟩ := List.cons.inj e
    obtain ⟨p3, _⟩ := List.cons.inj p2
    have := h.call.2.1 p1
    omega
  · rw [e] at h2
    rcases personal_long m with h3 | h3
    · exact h3 h2
    · omega

/-- No message of a transaction or input of a text signature is an Ethereum transaction, unless hashed. -/
theorem personal_not_eth (m : Bytes) : ¬ EthTx (personal m) := by
  obtain ⟨l, hl⟩ := personal_head m
  rw [hl]
  rintro (⟨b, l', e, hb⟩ | ⟨y, b, l', e, hy, hb⟩)
  · have := (List.cons.inj e).1; omega
  · have := (List.cons.inj e).1; omega

theorem encode_not_eth {t : Tx} (h : t.WF) : ¬ EthTx t.encode := by
  unfold Tx.encode
  rintro (⟨b, l', e, hb⟩ | ⟨y, b, l', e, hy, hb⟩)
  · have := (List.cons.inj e).1
    have := h.call.1
    omega
  · obtain ⟨e1, e2⟩ := List.cons.inj e
    have e3 := (List.cons.inj e2).1
    have := h.call.2.2 (by rw [e1]; exact hy)
    omega

/-- Equal messages are of equal transactions, or a collision. -/
theorem message_inj {c : Cfg} {t t' : Tx} (h : t.WF) (h' : t'.WF) (e : t.message c = t'.message c) :
    t.encode = t'.encode ∨ (t.encode ≠ t'.encode ∧ c.blake t.encode = c.blake t'.encode) := by
  by_cases hne : t.encode = t'.encode
  · exact Or.inl hne
  · rcases message_cases c h with ⟨e1, h1, h2⟩ | ⟨e1, h1, h2⟩ <;>
    rcases message_cases c h' with ⟨e2, h3, h4⟩ | ⟨e2, h3, h4⟩
    · exact Or.inl (by rw [← e1, ← e2, e])
    · rw [← e, e1] at h4; omega
    · rw [e, e2] at h2; omega
    · exact Or.inr ⟨hne, by rw [← e1, ← e2, e]⟩

theorem verifySig_iff {c : Cfg} {sig : Nat} {d a : Bytes} :
    verifySig c sig d a = true ↔ ∃ pk, c.recover sig d = some pk ∧ address c pk = a := by
  unfold verifySig
  cases c.recover sig d with
  | none => simp
  | some pk => simp

theorem verify_iff {c : Cfg} {sig : Nat} {m a : Bytes} : verify c sig m a = true ↔
    verifySig c sig (c.keccak m) a = true ∨ verifySig c sig (c.keccak (personal m)) a = true ∨
    verifySig c sig (c.keccak (personal (c.blake m))) a = true := by
  unfold verify
  split
  · rename_i h; exact ⟨fun _ => Or.inl h, fun _ => rfl⟩
  · rename_i h
    split
    · rename_i h2; exact ⟨fun _ => Or.inr (Or.inl h2), fun _ => rfl⟩
    · rename_i h2
      exact ⟨fun h3 => Or.inr (Or.inr h3), fun h3 => h3.elim (absurd · h) (fun h3 => h3.elim (absurd · h2) id)⟩

/-- The three strings whose hashes are tried for a message. -/
theorem verify_signed {c : Cfg} {sig : Nat} {m a : Bytes} {acts : List Act} (hu : Unforged c a acts)
    (h : verify c sig m a = true) :
    ∃ act ∈ acts, ∃ x ∈ [m, personal m, personal (c.blake m)], c.keccak (act.input c) = c.keccak x := by
  rcases verify_iff.mp h with h | h | h <;>
  · obtain ⟨pk, h1, h2⟩ := verifySig_iff.mp h
    obtain ⟨act, ha, he⟩ := hu _ _ _ h1 h2
    refine ⟨act, ha, _, ?_, he⟩
    simp

theorem hex_length : ∀ l : Bytes, (hex l).length = 2 * l.length
  | [] => rfl
  | b :: l => by
    unfold hex
    simp only [List.length_cons, hex_length l]
    omega

theorem hexDigit_inj {a b : Nat} (ha : a < 16) (hb : b < 16) (h : hexDigit a = hexDigit b) : a = b := by
  unfold hexDigit at h
  split at h <;> split at h <;> omega

theorem hex_inj : ∀ {l m : Bytes}, (∀ b ∈ l, b < 256) → (∀ b ∈ m, b < 256) → hex l = hex m → l = m
  | [], [], _, _, _ => rfl
  | [], b :: m, _, _, h => by unfold hex at h; cases h
  | b :: l, [], _, _, h => by unfold hex at h; cases h
  | a :: l, b :: m, hl, hm, h => by
    unfold hex at h
    obtain ⟨h1, h2⟩ := List.cons.inj h
    obtain ⟨h3, h4⟩ := List.cons.inj h2
    have ha := hl a List.mem_cons_self
    have hb := hm b List.mem_cons_self
    have e1 := hexDigit_inj (by omega) (by omega) h1
    have e2 := hexDigit_inj (by omega) (by omega) h3
    have : a = b := by omega
    rw [this, hex_inj (fun x hx => hl x (List.mem_cons_of_mem _ hx)) (fun x hx => hm x (List.mem_cons_of_mem _ hx)) h4]

theorem packed_inj {k k' : Consent} (h : k.WF) (h' : k'.WF) (e : k.packed = k'.packed) : k = k' := by
  unfold Consent.packed at e
  obtain ⟨e1, e2⟩ := List.append_inj e (by
    simp only [List.length_append, h.futurepass, h'.futurepass, h.delegate, h'.delegate, List.length_cons,
      List.length_nil])
  obtain ⟨e3, e4⟩ := List.append_inj e1 (by
    simp only [List.length_append, h.futurepass, h'.futurepass, h.delegate, h'.delegate])
  obtain ⟨e5, e6⟩ := List.append_inj e3 (by rw [h.futurepass, h'.futurepass])
  cases k
  cases k'
  dsimp only at e2 e4 e5 e6
  subst e2 e5 e6
  cases e4
  rfl

end Verif.Sign
