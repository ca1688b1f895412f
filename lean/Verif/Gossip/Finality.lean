import Verif.Ledger

/-!
# The worker's passage through finalised blocks (C168, C169)

/repo/ethy-gadget/src/worker.rs:105-136 and 240-313. Finalised blocks form one chain and are given by their
numbers. What is done with the requests of a block is `Verif.Witness`; here only which blocks are looked at
matters.
-/

namespace Verif.Gossip.Finality

/-- The client and the worker of a node. -/
structure St where
  /-- the client's last finalised block -/
  final : Nat
  /-- finality notifications the worker has not taken yet, oldest first -/
  queue : List Nat
  /-- worker.rs: the number of `best_grandpa_block_header` -/
  best : Nat
  /-- ghost: blocks whose requests the worker handled, newest first -/
  log : List Nat

/-- worker.rs:301-312: the requests of block `n` are handled. -/
def look (s : St) (n : Nat) : St :=
  { s with
    best := n
    log := n :: s.log }

/-- worker.rs:240-313 `handle_finality_notification`; `avail k` says that the header of block `k` can be read
(256). Block 0 is never above `best`. -/
def handle (avail : Nat → Bool) (s : St) : Nat → St
  | 0 => s
  | k + 1 =>
    if k + 1 ≤ s.best then s
    else look (if s.best + 1 < k + 1 ∧ avail k = true then handle avail s k else s) (k + 1)

/-- The same with a stack of `room` frames: each nested call (264) takes one, `none` is exhaustion. -/
def handleS (avail : Nat → Bool) (room : Nat) (s : St) : Nat → Option St
  | 0 => if room = 0 then none else some s
  | k + 1 =>
    if room = 0 then none
    else if k + 1 ≤ s.best then some s
    else if s.best + 1 < k + 1 ∧ avail k = true then (handleS avail (room - 1) s k).map (look · (k + 1))
    else some (look s (k + 1))

/-- What happens to a node: lines of worker.rs are at each case. -/
inductive Op where
  /-- the client finalises block `n`, with or without a notification (251: they may be skipped) -/
  | finalise (n : Nat) (notify : Bool)
  /-- the worker takes a notification -/
  | work
  /-- the node is stopped at any point and started again (118-131: the worker starts at the client's last
  finalised block) -/
  | restart
deriving DecidableEq

/-- worker.rs:240-313 and 407-455, by way of `handle` above; the client is a dependency. -/
def step (avail : Nat → Bool) (s : St) : Op → St
  | .finalise n notify =>
    { s with
      final := max s.final n
      queue := if notify then s.queue ++ [max s.final n] else s.queue }
  | .work =>
    match s.queue with
    | [] => s
    | n :: q => handle avail { s with queue := q } n
  | .restart =>
    { s with
      queue := []
      best := s.final }

/-- A history. No counterpart in the code. -/
def exec (avail : Nat → Bool) (s : St) : List Op → St
  | [] => s
  | op :: ops => exec avail (step avail s op) ops

/-- A node just started at block `n`. -/
def start (n : Nat) : St := ⟨n, [], n, []⟩

/-! ## Specification -/

/-- The blocks after `a` up to `b`, in ascending order. -/
def blocks (a b : Nat) : List Nat := List.range' (a + 1) (b - a)

theorem blocks_snoc {a b : Nat} (h : a ≤ b) : blocks a (b + 1) = blocks a b ++ [b + 1] := by
  unfold blocks
  rw [show b + 1 - a = b - a + 1 from by omega, List.range'_concat]
  congr 2
  omega

theorem mem_blocks {a b x : Nat} : x ∈ blocks a b ↔ a < x ∧ x ≤ b := by
  unfold blocks
  rw [List.mem_range'_1]
  omega

/-! ## Lemmas -/

theorem handle_frame (avail : Nat → Bool) : ∀ (n : Nat) (s : St),
    (handle avail s n).final = s.final ∧ (handle avail s n).queue = s.queue
  | 0, _ => ⟨rfl, rfl⟩
  | k + 1, s => by
    have ih := handle_frame avail k s
    unfold handle
    split
    · exact ⟨rfl, rfl⟩
    · split
      · exact ih
      · exact ⟨rfl, rfl⟩

theorem handle_best (avail : Nat → Bool) : ∀ (n : Nat) (s : St), (handle avail s n).best = max s.best n
  | 0, s => by simp [handle]
  | k + 1, s => by
    unfold handle
    split
    · omega
    · show k + 1 = _
      omega

/-- With all headers readable, the worker looks at exactly the blocks in between, in order. -/
theorem handle_log {avail : Nat → Bool} (ha : ∀ k, avail k = true) : ∀ (n : Nat) (s : St),
    (handle avail s n).log = (blocks s.best (max s.best n)).reverse ++ s.log
  | 0, s => by simp [handle, blocks]
  | k + 1, s => by
    have ih := handle_log ha k s
    unfold handle
    split
    · rename_i h
      rw [Nat.max_eq_left h]
      simp [blocks]
    · rename_i h
      have hk : s.best ≤ k := by omega
      rw [Nat.max_eq_right (by omega : s.best ≤ k + 1), blocks_snoc hk]
      split
      · show (k + 1) :: (handle avail s k).log = _
        rw [ih, Nat.max_eq_right hk]
        simp
      · rename_i h2
        have : s.best = k := by
          by_contra hne
          exact h2 ⟨by omega, ha k⟩
        show (k + 1) :: s.log = _
        rw [this]
        simp [blocks]

theorem blocks_append {a b d : Nat} (h1 : a ≤ b) (h2 : b ≤ d) : blocks a b ++ blocks b d = blocks a d := by
  obtain ⟨k, rfl⟩ := Nat.exists_eq_add_of_le h2
  induction k with
  | zero => simp [blocks]
  | succ k ih =>
    rw [show b + (k + 1) = b + k + 1 from rfl, blocks_snoc (by omega), blocks_snoc (by omega), ← List.append_assoc,
      ih (by omega)]

theorem exec_log {avail : Nat → Bool} (ha : ∀ k, avail k = true) {b : Nat} : ∀ (ops : List Op) {s : St},
    b ≤ s.best → s.log.reverse = blocks b s.best → (∀ op ∈ ops, op ≠ .restart) →
    b ≤ (exec avail s ops).best ∧ (exec avail s ops).log.reverse = blocks b (exec avail s ops).best
  | [], _, h1, h2, _ => ⟨h1, h2⟩
  | op :: ops, s, h1, h2, hr => by
    unfold exec
    have hr' := fun o ho => hr o (List.mem_cons_of_mem _ ho)
    cases op with
    | finalise n notify => exact exec_log ha ops (s := step avail s (.finalise n notify)) h1 h2 hr'
    | work =>
      cases hq : s.queue with
      | nil =>
        have : step avail s .work = s := by unfold step; rw [hq]
        rw [this]; exact exec_log ha ops h1 h2 hr'
      | cons n q =>
        have : step avail s .work = handle avail { s with queue := q } n := by unfold step; rw [hq]
        rw [this]
        have hb := handle_best avail n { s with queue := q }
        have hl := handle_log ha n { s with queue := q }
        dsimp only at hb hl
        refine exec_log ha ops ?_ ?_ hr'
        · rw [hb]; omega
        · rw [hl, hb, List.reverse_append, List.reverse_reverse, h2]
          exact blocks_append h1 (by omega)
    | restart => exact absurd rfl (hr .restart List.mem_cons_self)

/-- A block at or below `best` that was not looked at is never looked at. -/
theorem handle_skip (avail : Nat → Bool) {k : Nat} : ∀ (n : Nat) (s : St), k ≤ s.best →
    (k ∈ (handle avail s n).log ↔ k ∈ s.log)
  | 0, _, _ => Iff.rfl
  | j + 1, s, h => by
    have ih := handle_skip avail j s h
    unfold handle
    split
    · exact Iff.rfl
    · rename_i hn
      have hne : k ≠ j + 1 := by omega
      split
      · show k ∈ (j + 1) :: (handle avail s j).log ↔ _
        rw [List.mem_cons, ih]
        simp [hne]
      · show k ∈ (j + 1) :: s.log ↔ _
        simp [hne]

theorem exec_skip (avail : Nat → Bool) {k : Nat} : ∀ (ops : List Op) {s : St}, k ≤ s.best → k ≤ s.final → k ∉ s.log →
    k ∉ (exec avail s ops).log
  | [], _, _, _, h => h
  | op :: ops, s, h1, h2, h3 => by
    unfold exec
    cases op with
    | finalise n notify =>
      exact exec_skip avail ops (s := step avail s (.finalise n notify)) h1 (by show k ≤ max s.final n; omega) h3
    | work =>
      cases hq : s.queue with
      | nil =>
        have : step avail s .work = s := by unfold step; rw [hq]
        rw [this]; exact exec_skip avail ops h1 h2 h3
      | cons n q =>
        have : step avail s .work = handle avail { s with queue := q } n := by unfold step; rw [hq]
        rw [this]
        refine exec_skip avail ops ?_ ?_ ?_
        · rw [handle_best]; dsimp only; omega
        · rw [(handle_frame avail n _).1]; exact h2
        · rw [handle_skip avail n { s with queue := q } h1]; exact h3
    | restart => exact exec_skip avail ops (s := step avail s .restart) h2 h2 h3

theorem handleS_eq (avail : Nat → Bool) : ∀ (n room : Nat) (s : St), n - s.best < room →
    handleS avail room s n = some (handle avail s n)
  | 0, room, s, h => by unfold handleS handle; rw [if_neg (by omega)]
  | k + 1, room, s, h => by
    unfold handleS handle
    rw [if_neg (by omega)]
    split
    · rfl
    · split
      · rename_i h1 h2
        rw [handleS_eq avail k (room - 1) s (by omega)]
        rfl
      · rfl

theorem handleS_none {avail : Nat → Bool} (ha : ∀ k, avail k = true) : ∀ (n room : Nat) (s : St), s.best < n →
    room < n - s.best → handleS avail room s n = none
  | 0, _, _, h, _ => by omega
  | k + 1, room, s, h, h2 => by
    unfold handleS
    split
    · rfl
    · rename_i hr
      rw [if_neg (by omega), if_pos ⟨by omega, ha k⟩, handleS_none ha k (room - 1) s (by omega) (by omega)]
      rfl

/-! ## C168 -/

/-- C168, part: as long as the node runs and headers can be read, whatever blocks are finalised and whichever
notifications are skipped, the worker has looked at every block since its start once, in order, up to the
last one it was notified of.
Missing: restarts and unreadable headers (see the refutations below). -/
theorem C168_every_block_partial {avail : Nat → Bool} (ha : ∀ k, avail k = true) (b : Nat) (ops : List Op)
    (hr : ∀ op ∈ ops, op ≠ .restart) :
    (exec avail (start b) ops).log.reverse = blocks b (exec avail (start b) ops).best :=
  (exec_log ha ops (s := start b) (Nat.le_refl _) (by simp [start, blocks]) hr).2

/-- C168, part: a notification brings the worker up to the block it names. -/
theorem C168_caught_up_partial (avail : Nat → Bool) (s : St) {n : Nat} {q : List Nat} (hq : s.queue = n :: q) :
    n ≤ (step avail s .work).best := by
  have : step avail s .work = handle avail { s with queue := q } n := by unfold step; rw [hq]
  rw [this, handle_best]
  omega

/-- Non-vacuity: blocks 1 to 3 and 5 to 8 come without notification. -/
example : (exec (fun _ => true) (start 0) [.finalise 2 false, .finalise 4 true, .work, .finalise 9 true, .work]).log =
    [9, 8, 7, 6, 5, 4, 3, 2, 1] := by decide +kernel

/-- C168 is false across a restart: block `b + 1` is finalised, the node is stopped before the worker takes the
notification, and no history whatever makes the worker look at it. -/
theorem C168_restart_refuted (avail : Nat → Bool) (b : Nat) (ops : List Op) :
    let s := exec avail (start b) [.finalise (b + 1) true, .restart]
    s.final = b + 1 ∧ b + 1 ∉ (exec avail s ops).log := by
  have h1 : (exec avail (start b) [.finalise (b + 1) true, .restart]).final = b + 1 := by
    show max b (b + 1) = _
    omega
  refine ⟨h1, exec_skip avail ops ?_ ?_ ?_⟩
  · show b + 1 ≤ max b (b + 1)
    omega
  · rw [h1]
  · show b + 1 ∉ []
    simp

/-- C168 is false when one header cannot be read: the worker goes on with the block it was notified of, and the
readable blocks before it are lost as well. -/
theorem C168_header_refuted (ops : List Op) :
    let avail : Nat → Bool := fun k => k ≠ 4
    let s := exec avail (start 0) [.finalise 5 true, .work]
    s.log = [5] ∧ avail 3 = true ∧ 3 ∉ (exec avail s ops).log := by
  refine ⟨by decide +kernel, rfl, exec_skip _ ops ?_ ?_ ?_⟩ <;> decide +kernel

/-! ## C169 -/

/-- C169, part: with more stack frames than blocks to catch up on, the notification is handled.
Missing: longer gaps (see `C169_catch_up_refuted`). -/
theorem C169_catch_up_partial (avail : Nat → Bool) (room : Nat) (s : St) (n : Nat) (h : n - s.best < room) :
    handleS avail room s n = some (handle avail s n) := handleS_eq avail n room s h

/-- Non-vacuity: four frames are enough for three blocks. -/
example : (handleS (fun _ => true) 4 (start 5) 8).map St.log = some [8, 7, 6] := by decide +kernel

/-- C169 is false for every stack: a worker that is notified of a block that far ahead of the last one it
handled exhausts it. -/
theorem C169_catch_up_refuted (room : Nat) :
    ∃ s : St, ∃ n, s = exec (fun _ => true) (start 0) [.finalise n true] ∧ s.queue = [n] ∧
      handleS (fun _ => true) room s n = none :=
  ⟨_, room + 1, rfl, by show [max 0 (room + 1)] = _; rw [Nat.zero_max], handleS_none (fun _ => rfl) _ _ _
    (by show 0 < _; omega) (by show room < room + 1 - 0; omega)⟩

end Verif.Gossip.Finality
