import Verif.Notary.Spec
import Verif.Abi.Blowup

/-! # Facts about the encoded event data -/

namespace Verif.Notary

open Abi

theorem four_eq (id : Nat) (cl : Claim) : fourFields id cl = expected id cl := rfl

theorem four_bytes (id : Nat) (cl : Claim) : fourFields id cl =
    word id ++ (word cl.source ++ (word cl.destination ++ (word 128 ++ (word cl.data.length ++ padRight cl.data)))) := by
  rw [four_eq]
  unfold expected layout
  have h : headsLen [(false, word id), (false, word cl.source), (false, word cl.destination),
      (true, word cl.data.length ++ padRight cl.data)] = 128 := by
    simp only [headsLen, headLen, List.map_cons, List.map_nil, List.sum_cons, List.sum_nil, word_length]
    rfl
  rw [h]
  simp only [heads, tails, List.append_assoc, List.append_nil, List.nil_append]

theorem send_bytes (id : Nat) (cl : Claim) (fee : Nat) : sendMessage id cl fee =
    word id ++ (word cl.source ++ (word cl.destination ++ (word 160 ++ (word fee ++
      (word cl.data.length ++ padRight cl.data))))) := by
  have h0 : sendMessage id cl fee = layout [(false, word id), (false, word cl.source), (false, word cl.destination),
      (true, word cl.data.length ++ padRight cl.data), (false, word fee)] := rfl
  rw [h0]
  unfold layout
  have h : headsLen [(false, word id), (false, word cl.source), (false, word cl.destination),
      (true, word cl.data.length ++ padRight cl.data), (false, word fee)] = 160 := by
    simp only [headsLen, headLen, List.map_cons, List.map_nil, List.sum_cons, List.sum_nil, word_length]
    rfl
  rw [h]
  simp only [heads, tails, List.append_assoc, List.append_nil, List.nil_append]

theorem at_self (bs : List Byte) : At bs 0 bs := ⟨[], by simp⟩

theorem pad_prefix (bs : List Byte) : ∃ z, padRight bs = bs ++ z := ⟨_, rfl⟩

/-- The places of the fields in data of four fields. -/
theorem four_at (id : Nat) (cl : Claim) :
    At (fourFields id cl) 0 (word id) ∧ At (fourFields id cl) 32 (word cl.source) ∧
    At (fourFields id cl) 64 (word cl.destination) ∧ At (fourFields id cl) 96 (word 128) ∧
    At (fourFields id cl) 128 (word cl.data.length) ∧ At (fourFields id cl) 160 cl.data := by
  have h0 := at_self (fourFields id cl)
  rw [four_bytes] at h0 ⊢
  have h1 := h0.right
  rw [word_length] at h1
  have h2 := h1.right
  rw [word_length] at h2
  have h3 := h2.right
  rw [word_length] at h3
  have h4 := h3.right
  rw [word_length] at h4
  have h5 := h4.right
  rw [word_length] at h5
  exact ⟨h0.left, h1.left, h2.left, h3.left, h4.left, h5.left⟩

/-- The places of the fields in an event of the bridge contract. -/
theorem send_at (id : Nat) (cl : Claim) (fee : Nat) :
    At (sendMessage id cl fee) 0 (word id) ∧ At (sendMessage id cl fee) 32 (word cl.source) ∧
    At (sendMessage id cl fee) 64 (word cl.destination) ∧ At (sendMessage id cl fee) 96 (word 160) ∧
    At (sendMessage id cl fee) 128 (word fee) ∧ At (sendMessage id cl fee) 160 (word cl.data.length) ∧
    At (sendMessage id cl fee) 192 cl.data := by
  have h0 := at_self (sendMessage id cl fee)
  rw [send_bytes] at h0 ⊢
  have h1 := h0.right
  rw [word_length] at h1
  have h2 := h1.right
  rw [word_length] at h2
  have h3 := h2.right
  rw [word_length] at h3
  have h4 := h3.right
  rw [word_length] at h4
  have h5 := h4.right
  rw [word_length] at h5
  have h6 := h5.right
  rw [word_length] at h6
  exact ⟨h0.left, h1.left, h2.left, h3.left, h4.left, h5.left, h6.left⟩

theorem send_length (id : Nat) (cl : Claim) (fee : Nat) : 192 + cl.data.length ≤ (sendMessage id cl fee).length := by
  rw [send_bytes]
  simp only [List.length_append, word_length, padRight]
  omega

/-- An event of the bridge contract is never data of four fields: the pointer to the message differs. -/
theorem send_ne_four (id id' : Nat) (cl cl' : Claim) (fee : Nat) : sendMessage id cl fee ≠ fourFields id' cl' := by
  intro h
  have h1 := at_wordAt (send_at id cl fee).2.2.2.1 (by norm_num)
  have h2 := at_wordAt (four_at id' cl').2.2.2.1 (by norm_num)
  rw [h, h2] at h1
  cases h1

theorem w64 {n : Nat} (h : n < U64) : n < 2 ^ 256 := by
  unfold U64 at h
  exact Nat.lt_trans h (by norm_num)

theorem w160 {n : Nat} (h : n < 2 ^ 160) : n < 2 ^ 256 := Nat.lt_trans h (by norm_num)

theorem w32 {n : Nat} (h : n < U32 - 256) : n < 2 ^ 256 := by
  unfold U32 at h
  exact Nat.lt_trans h (by norm_num)

/-- Data of four fields determines them. -/
theorem four_inj {id id' : Nat} {cl cl' : Claim} (hf : Fits id cl) (hf' : Fits id' cl')
    (h : fourFields id cl = fourFields id' cl') :
    id = id' ∧ cl.source = cl'.source ∧ cl.destination = cl'.destination ∧ cl.data = cl'.data := by
  obtain ⟨a0, a1, a2, _, a4, a5⟩ := four_at id cl
  obtain ⟨b0, b1, b2, _, b4, b5⟩ := four_at id' cl'
  rw [← h] at b0 b1 b2 b4 b5
  have e : ∀ {c m n : Nat}, At (fourFields id cl) c (word m) → At (fourFields id cl) c (word n) →
      m < 2 ^ 256 → n < 2 ^ 256 → m = n := by
    intro c m n h1 h2 hm hn
    have h3 := at_wordAt h1 hm
    rw [at_wordAt h2 hn] at h3
    exact (Option.some.inj h3).symm
  have hl := e a4 b4 (w32 hf.data) (w32 hf'.data)
  refine ⟨e a0 b0 (w64 hf.id) (w64 hf'.id), e a1 b1 (w160 hf.source) (w160 hf'.source),
    e a2 b2 (w160 hf.destination) (w160 hf'.destination), ?_⟩
  rw [← a5.take, ← b5.take, hl]

/-- The relayer's submission of a bridge event is read as this event. -/
theorem decode_send {c : Cfg} {id fee : Nat} {cl : Claim} (hf : Fits id cl) (hfee : fee < 2 ^ 256)
    (hd : cl.data.length ≤ c.maxData) : decodeEvent c cl.txHash (sendMessage id cl fee) = some (id, cl) := by
  obtain ⟨a0, a1, a2, a3, a4, a5, a6⟩ := send_at id cl fee
  have hlen := send_length id cl fee
  have h32 := hf.data
  have hid := hf.id
  unfold U32 at h32
  unfold U64 at hid
  unfold decodeEvent
  rw [at_wordAt a0 (w64 hf.id), at_wordAt a1 (w160 hf.source), at_wordAt a2 (w160 hf.destination),
    at_wordAt a3 (by norm_num), at_wordAt a4 hfee]
  simp only [Option.bind_eq_bind, Option.bind_some]
  rw [at_wordAt a5 (w32 hf.data)]
  simp only [Option.bind_some]
  rw [if_pos ⟨by unfold U32; omega, by unfold U32; omega, by omega, hd⟩]
  have e1 : min id (U64 - 1) = id := by unfold U64; omega
  rw [e1, Nat.mod_eq_of_lt hf.source, Nat.mod_eq_of_lt hf.destination]
  have e2 := a6.take
  simp only [Nat.reduceAdd]
  rw [e2]

end Verif.Notary
