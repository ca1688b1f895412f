import Verif.EthyProof.Lemmas

/-!
# Properties of the outgoing side of the bridge

`issued`: the proof ids returned to requesters, newest first. `sent`: the signing requests put into a
block digest. `pending`: the queue of delayed requests.
-/

namespace Verif.EthyProof

/-- Run a list of operations. -/
def run (c : Cfg) (s : St) : List Op → Except Err St
  | [] => .ok s
  | op :: ops => do
    let s1 ← step c s op
    run c s1 ops

theorem run_reach {c : Cfg} : ∀ (ops : List Op) {s s' : St}, Reach c s → run c s ops = .ok s' → Reach c s'
  | [], _, _, h, e => by cases e; exact h
  | op :: ops, s, s', h, e => by
    simp only [run, bind_ok] at e
    obtain ⟨s1, e1, e2⟩ := e
    exact run_reach ops (h.step e1) e2

/-- An ordinary state: bridge open, nothing requested, set 7 in charge. -/
def g0 : St := ⟨0, false, false, 7, [], 2, [], [], 0⟩

/-- Messages of at most 100 bytes. -/
def cfg0 : Cfg := ⟨100⟩

theorem genesis_g0 : Genesis g0 := ⟨rfl, rfl, rfl, rfl, rfl⟩

/-- Two requests while open, a handover, three requests while paused, an oversized one from a hook. -/
def demoOps : List Op :=
  [.send (.eth 7 40) 10, .send (.xrpl 41) 20, .handleChange 42 60 [(43, 50)],
   .send (.eth 7 44) 10, .send (.eth 7 45) 10, .sendHook (.xrpl 46) 1000, .send (.xrpl 47) 10]

def demo : St := (run cfg0 g0 demoOps).toOption.getD g0

theorem demo_reach : Reach cfg0 demo :=
  run_reach demoOps (.init genesis_g0) (ok_getD (by decide +kernel))

/-- What is to be signed, without the validator set it is for: chain and message. -/
def content : Req → Bool × Nat
  | .eth _ m => (true, m)
  | .xrpl m => (false, m)

theorem content_refresh (s : St) (r : Req) : content (refresh s r) = content r := by
  cases r with
  | eth a m => unfold refresh; dsimp only; split <;> rfl
  | xrpl m => rfl

/-! ## C17 -/

/-- C17: the ids handed out are strictly increasing (the list is newest first). -/
theorem C17_ids_increase {c : Cfg} {s : St} (h : Reach c s) (hb : s.taken ≤ 2 ^ 64) :
    s.issued.Pairwise (fun newer older => older < newer) := h.pi.dec hb

/-- C17: every id handed out is either sent, once, or waiting, once, and nothing else is. -/
theorem C17_sent_or_pending {c : Cfg} {s : St} (h : Reach c s) (hb : s.taken ≤ 2 ^ 64) (id : Nat) :
    (s.sent.map Prod.fst).count id + (s.pending.map Prod.fst).count id = if id ∈ s.issued then 1 else 0 := by
  have hp := (h.pi.part hb).count_eq id
  rw [List.count_append] at hp
  have hn : s.issued.Nodup := (h.pi.dec hb).imp (fun hab => ne_of_gt hab)
  rw [hp]
  split
  · rename_i hm; exact List.count_eq_one_of_mem hn hm
  · rename_i hm; exact List.count_eq_zero.mpr hm

/-- C17: a request by an extrinsic returns the next id and is sent or queued with its message; a refused
one changes nothing. -/
theorem C17_request_recorded {c : Cfg} {s s' : St} {mk : Req} {len : Nat}
    (h : step c s (.send mk len) = .ok s') :
    s'.issued = s.nextId :: s.issued ∧
    ((s.manual = false ∧ s.change = false ∧ ∃ r, s'.sent = (s.nextId, r) :: s.sent ∧ content r = content mk) ∨
     ((s.manual = true ∨ s.change = true) ∧ (s.nextId, mk) ∈ s'.pending ∧ s'.sent = s.sent)) := by
  simp only [step, send, sendRaw] at h
  split at h
  · rename_i hl
    simp only [if_true, Except.ok.injEq] at h
    subst h
    refine ⟨rfl, ?_⟩
    cases hp : paused (takeId s) with
    | true =>
      right
      rw [doRequest_paused hp]
      refine ⟨?_, List.mem_cons_self, rfl⟩
      simpa [paused, takeId] using hp
    | false =>
      left
      rw [doRequest_open hp]
      simp [paused, takeId] at hp
      exact ⟨hp.1, hp.2, _, rfl, content_refresh _ _⟩
  · simp at h

/-- Non-vacuity: seven requests, of which one was refused; four sent, three waiting... -/
example : demo.issued = [7, 5, 4, 3, 2, 1, 0] ∧ demo.taken = 8 ∧ demo.sent.map Prod.fst = [3, 2, 1, 0] ∧
    demo.pending.map Prod.fst = [7, 5, 4] := by
  refine ⟨?_, ?_, ?_, ?_⟩ <;> decide +kernel

/-! ## C18 -/

theorem sendRaw_sent_paused {c : Cfg} {s : St} {mk : Req} {len : Nat} (h : paused s = true) :
    (sendRaw c s mk len).1.sent = s.sent ∧ paused (sendRaw c s mk len).1 = true := by
  unfold sendRaw
  dsimp only
  split
  · have hp : paused (takeId s) = true := h
    rw [doRequest_paused hp]
    exact ⟨rfl, h⟩
  · exact ⟨rfl, h⟩

theorem foldl_sent_paused {c : Cfg} : ∀ (xs : List (Nat × Nat)) (s : St), paused s = true →
    (xs.foldl (fun t m => sendHook c t (.xrpl m.1) m.2) s).sent = s.sent
  | [], _, _ => rfl
  | x :: xs, s, h => by
    obtain ⟨h1, h2⟩ := sendRaw_sent_paused (c := c) (mk := .xrpl x.1) (len := x.2) h
    exact (foldl_sent_paused xs _ h2).trans h1

/-- C18: while the bridge is paused, for either reason, no operation sends anything for signing. -/
theorem C18_paused_sends_nothing {c : Cfg} {s s' : St} {op : Op} (h : step c s op = .ok s')
    (hp : s.manual = true ∨ s.change = true) : s'.sent = s.sent := by
  have hp : paused s = true := by simpa [paused] using hp
  cases op with
  | send mk len =>
    simp only [step, send] at h
    split at h
    · cases h; exact (sendRaw_sent_paused hp).1
    · cases h
  | sendHook mk len => cases h; exact (sendRaw_sent_paused hp).1
  | setPaused b => cases h; rfl
  | setPerBlock n => cases h; rfl
  | handleChange msg len xs =>
    cases h
    obtain ⟨h1, h2⟩ := sendRaw_sent_paused (c := c) (mk := .eth s.setId msg) (len := len) hp
    exact (foldl_sent_paused xs _ h2).trans h1
  | finalise => cases h; rfl
  | idle order budget =>
    obtain ⟨_, ⟨_, rfl⟩ | ⟨h0, _⟩⟩ := idle_ok h
    · rfl
    · rw [hp] at h0; cases h0

/-- An operation that does not pause the bridge or switch the draining off. -/
def Draining : Op → Prop
  | .setPaused b => b = false
  | .handleChange _ _ _ => False
  | .setPerBlock n => 1 ≤ n
  | .idle _ budget => 1 ≤ budget
  | _ => True

/-- The number of idle blocks in a history. -/
def idleCount : List Op → Nat
  | [] => 0
  | .idle _ _ :: ops => idleCount ops + 1
  | _ :: ops => idleCount ops

theorem sendRaw_open {c : Cfg} {s : St} {mk : Req} {len : Nat} (h : paused s = false) :
    (sendRaw c s mk len).1.pending = s.pending ∧ paused (sendRaw c s mk len).1 = false ∧
    (sendRaw c s mk len).1.perBlock = s.perBlock ∧
    (∀ p ∈ s.sent, p ∈ (sendRaw c s mk len).1.sent) := by
  unfold sendRaw
  dsimp only
  split
  · have hp : paused (takeId s) = false := h
    rw [doRequest_open hp]
    exact ⟨rfl, h, rfl, fun p hp => List.mem_cons_of_mem _ hp⟩
  · exact ⟨rfl, h, rfl, fun p hp => hp⟩

theorem draining_step {c : Cfg} {s s' : St} {op : Op} (h : step c s op = .ok s') (hd : Draining op)
    (hp : paused s = false) (hk : 1 ≤ s.perBlock) :
    paused s' = false ∧ 1 ≤ s'.perBlock ∧ (∀ p ∈ s.sent, p ∈ s'.sent) ∧
    s'.pending.length + idleCount [op] ≤ max s.pending.length (idleCount [op]) ∧
    (∀ p ∈ s.pending, p ∈ s'.pending ∨ ∃ r, (p.1, r) ∈ s'.sent ∧ content r = content p.2) := by
  cases op with
  | send mk len =>
    simp only [step, send] at h
    split at h
    · cases h
      obtain ⟨h1, h2, h3, h4⟩ := sendRaw_open (c := c) (mk := mk) (len := len) hp
      refine ⟨h2, by rw [h3]; exact hk, h4, by rw [h1]; simp [idleCount], ?_⟩
      intro p hm; left; rw [h1]; exact hm
    · cases h
  | sendHook mk len =>
    cases h
    obtain ⟨h1, h2, h3, h4⟩ := sendRaw_open (c := c) (mk := mk) (len := len) hp
    refine ⟨h2, by change 1 ≤ (sendRaw c s mk len).1.perBlock; rw [h3]; exact hk, h4, ?_, ?_⟩
    · change (sendRaw c s mk len).1.pending.length + _ ≤ _
      rw [h1]; simp [idleCount]
    · intro p hm; left; change p ∈ (sendRaw c s mk len).1.pending; rw [h1]; exact hm
  | setPaused b =>
    cases h
    have hb : b = false := hd
    subst hb
    refine ⟨?_, hk, fun _ h => h, by simp [idleCount], fun p hm => Or.inl hm⟩
    simp [paused] at hp ⊢
    exact hp.2
  | setPerBlock n => cases h; exact ⟨hp, hd, fun _ h => h, by simp [idleCount], fun p hm => Or.inl hm⟩
  | handleChange msg len xs => exact absurd hd (by simp [Draining])
  | finalise =>
    cases h
    refine ⟨?_, hk, fun _ h => h, by simp [idleCount, finalise], fun p hm => Or.inl hm⟩
    simp [paused, finalise] at hp ⊢
    exact hp.1
  | idle order budget =>
    have hb : 1 ≤ budget := hd
    obtain ⟨hperm, ⟨h0, _⟩ | ⟨_, rfl⟩⟩ := idle_ok h
    · rw [hp] at h0; cases h0
    · have hlen := hperm.length_eq
      refine ⟨hp, hk, fun p hm => List.mem_append_right _ hm, ?_, ?_⟩
      · simp only [List.length_drop, idleCount]
        have : 1 ≤ min s.perBlock budget := by omega
        omega
      · intro p hm
        have hm' : p ∈ order := hperm.mem_iff.mpr hm
        rw [← List.take_append_drop (min s.perBlock budget) order] at hm'
        rcases List.mem_append.mp hm' with h1 | h1
        · right
          dsimp only
          refine ⟨refresh s p.2, List.mem_append_left _ ?_, content_refresh _ _⟩
          simp only [List.mem_reverse, List.mem_map]
          exact ⟨p, h1, rfl⟩
        · left; exact h1

/-- C18: once the bridge is open and stays open, as many idle blocks as there are waiting requests (each
draining at least one) send every one of them, with its message, whatever else happens in between. -/
theorem C18_unpaused_drains {c : Cfg} : ∀ (ops : List Op) {s s' : St}, run c s ops = .ok s' →
    s.manual = false ∧ s.change = false → 1 ≤ s.perBlock → (∀ op ∈ ops, Draining op) →
    s.pending.length ≤ idleCount ops →
    s'.pending = [] ∧ ∀ p ∈ s.pending, ∃ r, (p.1, r) ∈ s'.sent ∧ content r = content p.2 := by
  have gen : ∀ (ops : List Op) {s s' : St}, run c s ops = .ok s' → paused s = false → 1 ≤ s.perBlock →
      (∀ op ∈ ops, Draining op) →
      s'.pending.length ≤ s.pending.length - idleCount ops ∧ (∀ p ∈ s.sent, p ∈ s'.sent) ∧
      (∀ p ∈ s.pending, p ∈ s'.pending ∨ ∃ r, (p.1, r) ∈ s'.sent ∧ content r = content p.2) := by
    intro ops
    induction ops with
    | nil =>
      intro s s' e _ _ _
      cases e
      exact ⟨by simp [idleCount], fun _ h => h, fun p h => Or.inl h⟩
    | cons op ops ih =>
      intro s s' e hp hk hd
      simp only [run, bind_ok] at e
      obtain ⟨s1, e1, e2⟩ := e
      obtain ⟨h1, h2, h3, h4, h5⟩ := draining_step e1 (hd op List.mem_cons_self) hp hk
      obtain ⟨g1, g2, g3⟩ := ih e2 h1 h2 (fun o ho => hd o (List.mem_cons_of_mem _ ho))
      have hc : idleCount (op :: ops) = idleCount ops + idleCount [op] := by
        cases op <;> simp [idleCount]
      refine ⟨by omega, fun p hm => g2 p (h3 p hm), ?_⟩
      intro p hm
      rcases h5 p hm with h6 | h6
      · exact g3 p h6
      · right
        obtain ⟨r, hr, e⟩ := h6
        exact ⟨r, g2 _ hr, e⟩
  intro ops s s' e hp hk hd hn
  have hp : paused s = false := by simp [paused, hp]
  obtain ⟨g1, g2, g3⟩ := gen ops e hp hk hd
  have h0 : s'.pending = [] := by
    apply List.length_eq_zero_iff.mp; omega
  refine ⟨h0, ?_⟩
  intro p hm
  rcases g3 p hm with h | h
  · rw [h0] at h; cases h
  · exact h

/-- Non-vacuity: after the handover the three waiting requests go out in two idle blocks, in the order of
the storage map, with the new set id. -/
example : (run cfg0 demo [.finalise, .idle [(5, .eth 7 45), (7, .xrpl 47), (4, .eth 7 44)] 10,
      .send (.xrpl 48) 10, .idle [(4, .eth 7 44)] 1]).toOption.map (fun s => (s.pending, s.sent.take 4)) =
    some ([], [(4, .eth 8 44), (8, .xrpl 48), (7, .xrpl 47), (5, .eth 8 45)]) := by decide +kernel

/-! ## C66 -/

/-- C66, part: if the bridge is not paused when the authorities change, the handover event is sent at once,
for signature by the outgoing set, and then the bridge is paused.
Missing: a bridge that is paused at that moment (see `C66_handover_refuted`). -/
theorem C66_handover_by_old_set_partial {c : Cfg} {s s' : St} {msg len : Nat} {xs : List (Nat × Nat)}
    (h : step c s (.handleChange msg len xs) = .ok s') (hp : s.manual = false ∧ s.change = false)
    (hl : len ≤ c.maxData) :
    (s.nextId, .eth s.setId msg) ∈ s'.sent ∧ s'.setId = s.setId ∧ s'.change = true := by
  have hp : paused s = false := by simp [paused, hp]
  cases h
  have hp' : paused (takeId s) = false := hp
  have h1 : (s.nextId, Req.eth s.setId msg) ∈ (sendHook c s (.eth s.setId msg) len).sent ∧
      paused (sendHook c s (.eth s.setId msg) len) = false ∧
      (sendHook c s (.eth s.setId msg) len).setId = s.setId := by
    refine ⟨?_, (sendRaw_open hp).2.1, ?_⟩
    · unfold sendHook sendRaw
      dsimp only
      rw [if_pos hl, doRequest_open hp']
      have : refresh (takeId s) (.eth s.setId msg) = .eth s.setId msg := by
        unfold refresh takeId; simp
      rw [this]
      exact List.mem_cons_self
    · unfold sendHook sendRaw
      dsimp only
      rw [if_pos hl, doRequest_open hp']
      rfl
  have gen : ∀ (xs : List (Nat × Nat)) (t : St), (s.nextId, Req.eth s.setId msg) ∈ t.sent → paused t = false →
      t.setId = s.setId →
      (s.nextId, Req.eth s.setId msg) ∈ (xs.foldl (fun t m => sendHook c t (.xrpl m.1) m.2) t).sent ∧
      (xs.foldl (fun t m => sendHook c t (.xrpl m.1) m.2) t).setId = s.setId := by
    intro xs
    induction xs with
    | nil => intro t a _ b; exact ⟨a, b⟩
    | cons x xs ih =>
      intro t a b d
      obtain ⟨_, k2, _, k4⟩ := sendRaw_open (c := c) (mk := .xrpl x.1) (len := x.2) b
      refine ih _ (k4 _ a) k2 ?_
      have : (sendHook c t (.xrpl x.1) x.2).setId = t.setId := by
        unfold sendHook sendRaw
        dsimp only
        split
        · exact (doRequest_taken (takeId t) _ _).2.2.2.2.2.1
        · rfl
      rw [this]; exact d
  obtain ⟨k1, k2⟩ := gen xs _ h1.1 h1.2.1 h1.2.2
  exact ⟨k1, k2, rfl⟩

/-- Non-vacuity: the handover in the demo. -/
example : (2, Req.eth 7 42) ∈ demo.sent ∧ demo.change = true := by constructor <;> decide +kernel

/-- C66 is false when the bridge was paused by hand before the change: the event that tells the Ethereum
contract about set 8 is sent only after set 8 has taken over, for signature by set 8 itself. -/
theorem C66_handover_refuted :
    ∃ s, run cfg0 g0 [.setPaused true, .handleChange 42 60 [], .finalise, .setPaused false,
        .idle [(0, .eth 7 42)] 10] = .ok s ∧ g0.setId = 7 ∧ s.sent = [(0, .eth 8 42)] := by
  refine ⟨_, ok_getD (d := g0) ?_, rfl, ?_⟩ <;> decide +kernel

end Verif.EthyProof
