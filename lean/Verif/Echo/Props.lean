import Verif.Echo.Model
import Verif.Abi.Sound

/-!
# C251: pings and pongs
-/

namespace Verif.Echo

open Verif.Abi (Byte word ofBe be)

/-! ## specification -/

/-- The numbers of the pings that are announced. -/
def sessions : List Said → List Nat
  | [] => []
  | .pingSent n _ _ _ :: l => n :: sessions l
  | _ :: l => sessions l

/-- The message an announcement speaks of: pings have kind 0, pongs kind 1. -/
def msgOf : Said → List Msg
  | .pingSent n src dest id => [⟨src, dest, encode 0 n dest, id⟩]
  | .pongSent n src dest id => [⟨src, dest, encode 1 n dest, id⟩]
  | _ => []

/-! ## encoding -/

theorem encode_length (k n d : Nat) : (encode k n d).length = 96 := by
  unfold encode
  simp [Abi.word_length]

theorem drop76 (k n d : Nat) (rest : List Byte) :
    ((encode k n d ++ rest).drop 76).take 20 = (word d).drop 12 := by
  have h1 : encode k n d ++ rest = (word k ++ word n ++ (word d).take 12) ++ ((word d).drop 12 ++ rest) := by
    unfold encode
    conv_lhs => rw [← List.take_append_drop 12 (word d)]
    simp only [List.append_assoc]
  have h2 : (word k ++ word n ++ (word d).take 12).length = 76 := by simp [Abi.word_length]
  have h3 : ((word d).drop 12).length = 20 := by simp [Abi.word_length]
  rw [h1, List.drop_left' h2, List.take_left' h3]

/-- **C251.** A message decodes to what was encoded, whatever follows it. -/
theorem C251_decode {k n d : Nat} (hk : k < 2 ^ 256) (hn : n < 2 ^ 256) (hd : d < 2 ^ 160) (rest : List Byte) :
    decode (encode k n d ++ rest) = some (k, n, d) := by
  unfold decode
  have hl : ¬ (encode k n d ++ rest).length < 96 := by
    rw [List.length_append, encode_length]
    omega
  rw [if_neg hl, drop76, Abi.ofBe_address d hd]
  have h1 : (encode k n d ++ rest).take 32 = word k := by
    unfold encode
    rw [List.append_assoc, List.append_assoc, List.take_left' (Abi.word_length k)]
  have h2 : ((encode k n d ++ rest).drop 32).take 32 = word n := by
    unfold encode
    rw [List.append_assoc, List.append_assoc, List.drop_left' (Abi.word_length k), List.take_left' (Abi.word_length n)]
  rw [h1, h2, Abi.ofBe_word k hk, Abi.ofBe_word n hn]

/-! ## numbers -/

theorem sessions_append : ∀ a b : List Said, sessions (a ++ b) = sessions a ++ sessions b
  | [], _ => rfl
  | e :: a, b => by
    cases e <;> simp [sessions, sessions_append a b]

theorem step_sessions (s : St) (op : Op) :
    sessions (step s op).2 = List.range' s.next ((step s op).1.next - s.next) ∧ s.next ≤ (step s op).1.next ∧
    (s.next < U64 → (step s op).1.next < U64) := by
  cases op with
  | ping who dest bridge =>
    unfold step
    cases h : ping s who dest bridge with
    | error e => simp [h, sessions]
    | ok r =>
      have h0 := h
      simp only [ping, bind_ok, ensure_ok, okOr_ok, pure_ok] at h
      obtain ⟨_, hn, id, _, rfl⟩ := h
      dsimp only
      rw [h0]
      refine ⟨?_, Nat.le_succ _, fun _ => hn⟩
      show [s.next] = List.range' s.next (s.next + 1 - s.next)
      rw [Nat.add_sub_cancel_left]
      rfl
  | event source data bridge =>
    have : (step s (.event source data bridge)).1.next = s.next ∧ sessions (step s (.event source data bridge)).2 = [] := by
      unfold step onEvent
      dsimp only
      split
      · exact ⟨rfl, rfl⟩
      · split
        · exact ⟨rfl, rfl⟩
        · split
          · split <;> exact ⟨rfl, rfl⟩
          · exact ⟨rfl, rfl⟩
    rw [this.1, this.2, Nat.sub_self]
    exact ⟨rfl, Nat.le_refl _, fun h => h⟩

/-- **C251.** The pings of a history have consecutive numbers, from the next free one on, whatever arrives in between and
whichever calls fail; so no number is used twice. -/
theorem C251_sessions : ∀ (ops : List Op) (s : St),
    sessions (story s ops) = List.range' s.next ((exec s ops).next - s.next) ∧ s.next ≤ (exec s ops).next
  | [], s => by
    show [] = List.range' s.next (s.next - s.next) ∧ s.next ≤ s.next
    rw [Nat.sub_self]
    exact ⟨rfl, Nat.le_refl _⟩
  | op :: ops, s => by
    obtain ⟨h1, h2, _⟩ := step_sessions s op
    obtain ⟨h3, h4⟩ := C251_sessions ops (step s op).1
    show sessions ((step s op).2 ++ story (step s op).1 ops) = List.range' s.next ((exec (step s op).1 ops).next - s.next) ∧
      s.next ≤ (exec (step s op).1 ops).next
    refine ⟨?_, h2.trans h4⟩
    rw [sessions_append, h1, h3]
    have e : s.next + ((step s op).1.next - s.next) = (step s op).1.next := by omega
    have e2 : (exec (step s op).1 ops).next - s.next =
        ((step s op).1.next - s.next) + ((exec (step s op).1 ops).next - (step s op).1.next) := by omega
    rw [e2, ← List.range'_append_1 (s := s.next), e]

/-- **C251.** No number is used twice. -/
theorem C251_once (ops : List Op) (s : St) : (sessions (story s ops)).Nodup := by
  rw [(C251_sessions ops s).1]
  exact List.nodup_range'

theorem next_bound : ∀ (ops : List Op) {s : St}, s.next < U64 → (exec s ops).next < U64
  | [], _, h => h
  | op :: ops, s, h => next_bound ops ((step_sessions s op).2.2 h)

/-! ## messages -/

theorem flatMap_app (a b : List Said) : (a ++ b).flatMap msgOf = a.flatMap msgOf ++ b.flatMap msgOf := List.flatMap_append

theorem step_sent (s : St) (op : Op) : (step s op).1.sent = s.sent ++ (step s op).2.flatMap msgOf := by
  cases op with
  | ping who dest bridge =>
    unfold step
    cases h : ping s who dest bridge with
    | error e => simp [h]
    | ok r =>
      have h0 := h
      simp only [ping, bind_ok, ensure_ok, okOr_ok, pure_ok] at h
      obtain ⟨_, hn, id, _, rfl⟩ := h
      dsimp only
      rw [h0]
      rfl
  | event source data bridge =>
    unfold step onEvent
    dsimp only
    split
    · simp
    · split
      · simp [msgOf]
      · split
        · split
          · simp [msgOf]
          · simp [msgOf]
        · simp

/-- **C251.** Over any history, the messages handed to the bridge are those announced, in order: to the announced
destination, in the name of the announced source, with the announced number, under the announced id. -/
theorem C251_sent : ∀ (ops : List Op) (s : St), (exec s ops).sent = s.sent ++ (story s ops).flatMap msgOf
  | [], s => (List.append_nil _).symm
  | op :: ops, s => by
    show (exec (step s op).1 ops).sent = s.sent ++ ((step s op).2 ++ story (step s op).1 ops).flatMap msgOf
    rw [C251_sent ops, step_sent, flatMap_app, List.append_assoc]

/-- **C251.** A ping from Ethereum with a number below 2⁶⁴, whatever data follows, is answered at once with one pong of the
same number to the address it names, in the name of the contract that sent it, if the bridge accepts it; and it is told. -/
theorem C251_answer (s : St) {n d : Nat} (hn : n < 2 ^ 64) (hd : d < 2 ^ 160) (source id : Nat) (rest : List Byte) :
    step s (.event source (encode 1 n d ++ rest) (some id)) =
      ({ s with sent := s.sent ++ [⟨source, d, encode 1 n d, id⟩] },
       [.pingReceived n source (encode 1 n d ++ rest), .pongSent n source d id]) := by
  have h := C251_decode (k := 1) (by norm_num) (hn.trans (by norm_num)) hd rest
  have hm : min n (U64 - 1) = n := by unfold U64; omega
  unfold step onEvent
  dsimp only
  rw [h]
  dsimp only
  rw [hm, if_neg (by omega), if_pos (by omega)]

/-- **C251.** The answer is a message that its receiver decodes to a pong of that number. -/
theorem C251_answer_decodes {n d : Nat} (hn : n < 2 ^ 64) (hd : d < 2 ^ 160) : decode (encode 1 n d) = some (1, n, d) := by
  have h := C251_decode (k := 1) (by norm_num) (hn.trans (by norm_num : (2 : Nat) ^ 64 < 2 ^ 256)) hd []
  rwa [List.append_nil] at h

/-- **C251.** If a ping from Ethereum is told, it is answered, unless the bridge refused the answer. -/
theorem C251_told (s : St) (source : Nat) (data : List Byte) (bridge : Option Nat) {n src : Nat} {x : List Byte}
    (h : .pingReceived n src x ∈ (step s (.event source data bridge)).2) :
    src = source ∧ x = data ∧ (bridge = none ∨ ∃ d id, bridge = some id ∧
      (step s (.event source data bridge)).2 = [.pingReceived n source data, .pongSent n source d id]) := by
  unfold step onEvent at h ⊢
  dsimp only at h ⊢
  cases hd : decode data with
  | none => rw [hd] at h; cases h
  | some t =>
    obtain ⟨k, m, d⟩ := t
    rw [hd] at h
    dsimp only at h ⊢
    split at h
    · cases List.mem_singleton.mp h
    · rename_i e0
      rw [if_neg e0]
      split at h
      · rename_i e1
        rw [if_pos e1]
        cases bridge with
        | none =>
          cases List.mem_singleton.mp h
          exact ⟨rfl, rfl, Or.inl rfl⟩
        | some id =>
          rcases List.mem_cons.mp h with h | h
          · cases h
            exact ⟨rfl, rfl, Or.inr ⟨d, id, rfl, rfl⟩⟩
          · cases List.mem_singleton.mp h
      · cases h

/-! ## what does not hold -/

/-- Nothing sent yet. -/
def s0 : St := ⟨0, []⟩

/-- **C251 is false for large numbers.** Numbers are 256 bits wide in the message and 64 bits wide in the pallet: two pings
with different numbers get the same answer, which carries neither number. -/
theorem C251_large_refuted : ∃ n m : Nat, n ≠ m ∧ n < 2 ^ 256 ∧ m < 2 ^ 256 ∧
    (step s0 (.event 9 (encode 1 n 7) (some 3))).1.sent = (step s0 (.event 9 (encode 1 m 7) (some 3))).1.sent ∧
    ∀ x ∈ (step s0 (.event 9 (encode 1 n 7) (some 3))).1.sent, decode x.data ≠ some (1, n, 7) ∧ decode x.data ≠ some (1, m, 7) := by
  refine ⟨2 ^ 64, 2 ^ 64 + 1, by decide, by decide, by decide, ?_, ?_⟩ <;> decide +kernel

/-- **C251 is false for pongs.** Any contract can make the pallet announce pongs for a ping that was never sent, more than
once. -/
theorem C251_pong_refuted : ∃ ops : List Op, sessions (story s0 ops) = [] ∧ (exec s0 ops).sent = [] ∧
    story s0 ops = [.pongReceived 5 666 (encode 0 5 7), .pongReceived 5 666 (encode 0 5 7)] := by
  refine ⟨[.event 666 (encode 0 5 7) none, .event 666 (encode 0 5 7) none], ?_, ?_, ?_⟩ <;> decide +kernel

/-- Two pings, one the bridge refuses, and a ping from Ethereum between them. -/
def talk : List Op := [.ping 1 7 (some 10), .ping 1 7 none, .event 9 (encode 1 0 8) (some 11), .ping 2 7 (some 12),
  .event 9 [] none, .event 9 (encode 2 0 8) (some 13)]

example : story s0 talk = [.pingSent 0 1 7 10, .pingReceived 0 9 (encode 1 0 8), .pongSent 0 9 8 11, .pingSent 1 2 7 12] ∧
    (exec s0 talk).sent = [⟨1, 7, encode 0 0 7, 10⟩, ⟨9, 8, encode 1 0 8, 11⟩, ⟨2, 7, encode 0 1 7, 12⟩] ∧
    (exec s0 talk).next = 2 := by
  refine ⟨?_, ?_, ?_⟩ <;> decide +kernel

end Verif.Echo
