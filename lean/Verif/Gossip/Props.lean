import Verif.Gossip.Count
import Verif.Witness.Props

/-!
# Properties of the gossip of bridge signatures (C164–C167)
-/

namespace Verif.Gossip

open Verif.Witness (Cfg Wit Chain authIndex isCompleted cfg0 sgn g0 genesis_g0 handleWitness noteMeta)
open Verif.Ethy (insertSorted mem_insertSorted)

/-! ## Demo -/

/-- A node that just joined a network with four validators, three of whom must sign; block 200 is final. -/
def n0 : St := ⟨g0, fun _ => [], [], [100, 200, 300, 400], 200, [], [], [], [100, 200, 300, 400]⟩

theorem genesis_n0 : Genesis n0 := ⟨genesis_g0, fun _ => rfl, rfl, rfl, rfl, rfl, rfl, rfl⟩

/-- The vote of validator `a` for event `e`, whose message is `1000 + e`. -/
def vote (e a : Nat) : Msg := ⟨sgn e (1000 + e) a, 200⟩

/-- Event 1 is voted on by three validators, with repetitions, and completed; two votes for event 2 arrive. -/
def demoOps : List Op :=
  [.recv (vote 1 100), .recv (vote 1 100), .recv (vote 1 999), .passive 1 .ethereum 1001, .work, .recv (vote 1 300),
   .recv (vote 2 100), .recv (vote 1 400), .work, .work, .work, .recv (vote 2 400)]

def demo : St := exec cfg0 n0 demoOps

theorem demo_reach : Reach cfg0 demo := exec_reach _ (.init genesis_n0)

example : demo.rcd.done = [1] ∧ demo.complete = [1] ∧ demo.known 1 = [] ∧ demo.known 2 = [100, 400] ∧
    demo.passed = [vote 2 400, vote 2 100] ∧ demo.inbox = [vote 2 400] := by
  refine ⟨?_, ?_, ?_, ?_, ?_, ?_⟩ <;> decide +kernel

/-! ## C164 -/

/-- C164: every message that waits for the worker was received and carries a valid signature, of the digest in
it, by someone who was a validator. -/
theorem C164_authentic {c : Cfg} {s : St} (h : Reach c s) {m : Msg} (hm : m ∈ s.inbox) :
    m ∈ s.heard ∧ m.wit.auth ∈ s.ever ∧ c.verify m.wit.auth m.wit.sig m.wit.digest = true :=
  (reach_inv h).inbox m hm

/-- C164: a message is accepted only from a validator that is active at that moment, with a valid signature and
a block number in the live window; nothing else reaches the worker. -/
theorem C164_only {c : Cfg} {s s' : St} {m x : Msg} (hs : step c s (.recv m) = .ok s') (hx : x ∈ s'.inbox)
    (hn : x ∉ s.inbox) :
    x = m ∧ m.wit.auth ∈ s.active ∧ c.verify m.wit.auth m.wit.sig m.wit.digest = true ∧
    s.finalized ≤ m.block + 90 := by
  simp only [step, Except.ok.injEq] at hs
  subst hs
  rw [receive_inbox] at hx
  split at hx
  · rename_i hacc
    rcases List.mem_append.mp hx with hx | hx
    · exact absurd hx hn
    · have h2 := hacc.2
      unfold old window at h2
      exact ⟨List.mem_singleton.mp hx, hacc.1.2.1, hacc.1.2.2, by omega⟩
  · exact absurd hx hn

/-- C164: among the messages accepted for events not completed since, no two are votes of the same validator
for the same event. -/
theorem C164_once {c : Cfg} {s : St} (h : Reach c s) :
    (s.passed.map (fun m => (m.wit.event, m.wit.auth))).Nodup := (reach_inv h).once

/-- Non-vacuity: the repeated vote and the outsider's vote were heard and not accepted. -/
example : (exec cfg0 n0 (demoOps.take 3)).heard.length = 3 ∧ (exec cfg0 n0 (demoOps.take 3)).inbox = [vote 1 100] ∧
    (exec cfg0 n0 (demoOps.take 3)).passed = [vote 1 100] := by
  refine ⟨?_, ?_, ?_⟩ <;> decide +kernel

/-! ## C165

A validator that signs a request and whose message reaches the node in time has its vote counted. -/

/-- C165, part: the message of an active validator with a valid signature and a recent block number is accepted
unless an earlier message with a valid signature of that validator named the same event.
Missing: that such an earlier message is the validator's own doing (see `C165_suppressed_refuted`). -/
theorem C165_accepted_partial {c : Cfg} {s s' : St} (h : Reach c s) {m : Msg} (ha : m.wit.auth ∈ s.active)
    (hv : c.verify m.wit.auth m.wit.sig m.wit.digest = true) (hb : s.finalized ≤ m.block + 90)
    (hfirst : ∀ x ∈ s.heard, x.wit.event = m.wit.event → x.wit.auth = m.wit.auth →
      c.verify x.wit.auth x.wit.sig x.wit.digest = false)
    (hs : step c s (.recv m) = .ok s') : s'.inbox = s.inbox ++ [m] := by
  simp only [step, Except.ok.injEq] at hs
  subst hs
  rw [receive_inbox, if_pos]
  refine ⟨⟨?_, ha, hv⟩, by unfold old window; omega⟩
  intro hk
  obtain ⟨_, x, hx, hvt, hver⟩ := (reach_inv h).source _ _ hk
  obtain ⟨e1, e2⟩ := Prod.mk.inj hvt
  rw [hfirst x hx e1 e2] at hver
  cases hver

/-- C165, part: when the worker takes a genuine vote for a request it knows, the vote is recorded or the proof
is made. -/
theorem C165_counted_partial {c : Cfg} {s s' : St} {m : Msg} {l : List Msg} {ch : Chain} {data i : Nat}
    (hi : s.inbox = m :: l) (hm : s.rcd.evMeta m.wit.event = some (ch, data)) (hg : Genuine c m.wit ch data)
    (hv : authIndex s.rcd.vals m.wit.auth = some i) (hc : ¬ isCompleted s.rcd m.wit.event)
    (hs : m.wit.auth ∉ s.rcd.seen m.wit.event) (hst : step c s .work = .ok s') :
    Counted s'.rcd m.wit.event i := by
  unfold step at hst
  rw [hi] at hst
  simp only [Except.ok.injEq] at hst
  subst hst
  rw [worked_rcd]
  exact handleWitness_counted hm hg hv hc hs

/-- C165, part: when the worker takes a vote before it knows the request, the vote is kept. -/
theorem C165_stored_partial {c : Cfg} {s s' : St} {m : Msg} {l : List Msg} (hi : s.inbox = m :: l)
    (hm : s.rcd.evMeta m.wit.event = none) (hc : ¬ isCompleted s.rcd m.wit.event)
    (hs : m.wit.auth ∉ s.rcd.seen m.wit.event) (hst : step c s .work = .ok s') :
    m.wit ∈ s'.rcd.unv m.wit.event := by
  unfold step at hst
  rw [hi] at hst
  simp only [Except.ok.injEq] at hst
  subst hst
  rw [worked_rcd]
  have hn : Witness.note c s.rcd m.wit = .ok
      { s.rcd with unv := upd s.rcd.unv m.wit.event (s.rcd.unv m.wit.event ++ [m.wit]) } := by
    simp only [Witness.note, bind_ok, ensure_ok]
    refine ⟨(), hc, (), hs, ?_⟩
    rw [hm]
  unfold handleWitness
  rw [hn]
  have ht : ∀ r : Witness.St, r.evMeta m.wit.event = none → Witness.tryMakeProof c r m.wit.event = r := by
    intro r hr; unfold Witness.tryMakeProof; rw [hr]
  show m.wit ∈ (Witness.tryMakeProof c _ m.wit.event).unv m.wit.event
  rw [ht { s.rcd with unv := upd s.rcd.unv m.wit.event (s.rcd.unv m.wit.event ++ [m.wit]) } hm]
  show m.wit ∈ upd s.rcd.unv m.wit.event _ m.wit.event
  rw [upd_same]
  exact List.mem_append_right _ (List.mem_singleton.mpr rfl)

/-- C165, part: when the request appears in a finalised block, every genuine vote kept for it is recorded, or the
proof is made. -/
theorem C165_kept_partial {c : Cfg} {s s' : St} (h : Reach c s) {w : Wit} {ch : Chain} {data i : Nat}
    (hw : w ∈ s.rcd.unv w.event) (hm : s.rcd.evMeta w.event = none) (hg : Genuine c w ch data)
    (hv : authIndex s.rcd.vals w.auth = some i) (hc : ¬ isCompleted s.rcd w.event)
    (hs : w.auth ∉ s.rcd.seen w.event) (hst : step c s (.passive w.event ch data) = .ok s') :
    Counted s'.rcd w.event i := by
  simp only [step, bind_ok, pure_ok] at hst
  obtain ⟨r, hr, rfl⟩ := hst
  simp only [Witness.step, bind_ok, ensure_ok, pure_ok] at hr
  obtain ⟨_, _, rfl⟩ := hr
  rw [worked_rcd]
  refine tryMakeProof_stored (m := (ch, data))
    (r := noteMeta { s.rcd with finalised := w.event :: s.rcd.finalised } w.event ch data) (reach_UE h) ?_ hg hv hc hs hw
  show upd s.rcd.evMeta w.event (some ((s.rcd.evMeta w.event).getD (ch, data))) w.event = _
  rw [upd_same, hm]
  rfl

/-- Non-vacuity: votes for event 2 are accepted, kept before its request is known, and recorded with it. -/
example : (exec cfg0 n0 [.recv (vote 2 100), .recv (vote 2 300), .work, .work]).rcd.unv 2 =
      [sgn 2 1002 100, sgn 2 1002 300] ∧
    (exec cfg0 n0 [.recv (vote 2 100), .recv (vote 2 300), .work, .work, .passive 2 .ethereum 1002]).rcd.wit 2 =
      [(0, 1102), (2, 1302)] := by
  refine ⟨?_, ?_⟩ <;> decide +kernel

/-- The same signed digests under another event id and an old block number: what anybody can make of messages
seen before. -/
def relabel (e : Nat) (ws : List Wit) : List Msg :=
  ws.map (fun w => ⟨{ w with event := e }, 0⟩)

/-- C165 is false: take any state in which nothing is known about event `e` yet, and one signed digest of each
active validator, for whatever it was signed. Sent under the id of `e`, by anybody, they silence all validators:
the proof of `e` is never made, whatever genuine votes arrive later and in whatever order, as long as the
validators stay the same. -/
theorem C165_suppressed_refuted {c : Cfg} {s : St} (h : Reach c s) {e : Nat} (hw : s.rcd.wit e = [])
    (hu : s.rcd.unv e = []) (hi : ∀ m ∈ s.inbox, m.wit.event ≠ e) (hd : e ∉ s.rcd.done)
    (ht : 2 ≤ s.rcd.thr ∧ 2 ≤ s.rcd.xthr) (hf : 90 < s.finalized) {ws : List Wit}
    (hcap : ∀ a ∈ s.active, ∃ w ∈ ws, w.auth = a ∧ c.verify a w.sig w.digest = true)
    (later : List Op) (hl : ∀ op ∈ later, SameVals op) :
    e ∉ (exec c (exec c s ((relabel e ws).map Op.recv)) later).rcd.done := by
  have hold : ∀ m ∈ relabel e ws, old s m := by
    intro m hm
    obtain ⟨w, _, rfl⟩ := List.mem_map.mp hm
    show 0 < s.finalized - 90
    omega
  obtain ⟨q1, q2, q3, _, _, q6⟩ := exec_old (c := c) (relabel e ws) hold
  refine (exec_blocked later ⟨?_, ?_, ?_, ?_, ?_, ?_, ?_⟩ hl).undone
  · rw [q1]; exact reach_UE h
  · rw [q2]
    intro a ha
    obtain ⟨w, hw, rfl, hver⟩ := hcap a ha
    exact q6 ⟨{ w with event := e }, 0⟩ (List.mem_map.mpr ⟨w, hw, rfl⟩) ha hver
  · rw [q1]; exact hu
  · rw [q1, hw]; exact Nat.zero_le _
  · rw [q3]; exact hi
  · rw [q1]; exact ht
  · rw [q1]; exact hd

/-- The votes the validators sent for event 1. -/
def captured : List Wit := [sgn 1 1001 100, sgn 1 1001 200, sgn 1 1001 300, sgn 1 1001 400]

/-- What happens for event 7 at an honest node. -/
def seven : List Op :=
  [.passive 7 .ethereum 1007, .recv (vote 7 100), .recv (vote 7 200), .recv (vote 7 300), .recv (vote 7 400), .work,
   .work, .work, .work]

/-- Non-vacuity: without the relabelled messages event 7 is proved, with them it is not. -/
example : 7 ∈ (exec cfg0 demo (.work :: seven)).rcd.done ∧
    7 ∉ (exec cfg0 (exec cfg0 demo ((relabel 7 captured).map Op.recv)) (.work :: seven)).rcd.done := by
  refine ⟨by decide +kernel, C165_suppressed_refuted demo_reach ?_ ?_ ?_ ?_ ?_ ?_ ?_ (.work :: seven) ?_⟩
  · decide +kernel
  · decide +kernel
  · decide +kernel
  · decide +kernel
  · decide +kernel
  · decide +kernel
  · decide +kernel
  · intro op hop
    simp only [seven, List.mem_cons, List.not_mem_nil, or_false] at hop
    rcases hop with rfl | rfl | rfl | rfl | rfl | rfl | rfl | rfl | rfl | rfl <;> trivial

/-! ## C166 -/

/-- C166, part: once the proof of an event is made, its messages are dropped and no longer sent, unless 499
events with greater ids were completed.
Missing: events with small ids completed late (see `C166_forgotten_refuted`). -/
theorem C166_quiet_partial {c : Cfg} {s : St} (h : Reach c s) {m : Msg} (hd : m.wit.event ∈ s.rcd.done)
    (hfew : ∀ l : List Nat, l.Nodup → (∀ x ∈ l, x ∈ s.rcd.done ∧ m.wit.event < x) → l.length < 499) :
    expired s m ∧ ¬ allowed s m := by
  have hm : m.wit.event ∈ s.complete := by
    by_contra hn
    obtain ⟨l, h1, h2, h3⟩ := (reach_inv h).forgot _ hd hn
    have := hfew l h1 h3
    rw [h2] at this
    unfold cacheMax at this
    omega
  exact ⟨Or.inr hm, fun ha => ha.2 hm⟩

/-- C166, part: an event without a proof is not silenced by the completion of others: its recent messages are
kept and sent. -/
theorem C166_open_partial {c : Cfg} {s : St} (h : Reach c s) {m : Msg} (hd : m.wit.event ∉ s.rcd.done)
    (hb : s.finalized ≤ m.block + 90) : ¬ expired s m ∧ allowed s m := by
  have h1 : ¬ old s m := by unfold old window; omega
  have h2 : m.wit.event ∉ s.complete := fun hm => hd ((reach_inv h).sub _ hm)
  exact ⟨fun he => he.elim h1 h2, h1, h2⟩

/-- C166: at most 500 completed events are remembered, in order. -/
theorem C166_cache_partial {c : Cfg} {s : St} (h : Reach c s) :
    s.complete.length ≤ 500 ∧ s.complete.Pairwise (· < ·) ∧ ∀ e ∈ s.complete, e ∈ s.rcd.done :=
  ⟨(reach_inv h).size, (reach_inv h).sorted, (reach_inv h).sub⟩

example : 1 ∈ demo.rcd.done ∧ 2 ∉ demo.rcd.done ∧ expired demo (vote 1 100) ∧ allowed demo (vote 2 100) := by
  refine ⟨by decide +kernel, by decide +kernel, Or.inr (by decide +kernel), by decide +kernel, by decide +kernel⟩

theorem exec_append {c : Cfg} : ∀ (a b : List Op) (s : St), exec c s (a ++ b) = exec c (exec c s a) b
  | [], _, _ => rfl
  | op :: a, b, s => by
    show exec c _ (a ++ b) = exec c (exec c _ a) b
    exact exec_append a b _

/-- A network with one validator, who is this node. -/
def n1 : St :=
  ⟨{ g0 with vals := [100], thr := 1, xvals := [100], xthr := 1 }, fun _ => [], [], [100], 200, [], [], [], [100]⟩

theorem genesis_n1 : Genesis n1 :=
  ⟨⟨fun _ => rfl, fun _ => rfl, fun _ => rfl, fun _ => rfl, rfl, rfl, rfl, rfl⟩, fun _ => rfl, rfl, rfl, rfl, rfl, rfl,
    rfl⟩

/-- The node signs event `e`, which completes it. -/
def own (e : Nat) : Op := .sign e .ethereum (1000 + e) 100 (1100 + e)

/-- The node after it signed and completed the events `ds`. -/
structure Run (s : St) (ds cs rs : List Nat) : Prop where
  vals : s.rcd.vals = [100]
  thr : s.rcd.thr = 1
  finalized : s.finalized = 200
  done : s.rcd.done = ds
  finalised : s.rcd.finalised = ds
  complete : s.complete = cs
  completed : s.rcd.completed = rs
  fresh : ∀ x, x ∉ ds → s.rcd.evMeta x = none ∧ s.rcd.seen x = [] ∧ s.rcd.wit x = [] ∧ s.rcd.unv x = []

theorem tryMakeProof_ready {c : Cfg} {r : Witness.St} {e : Nat} {m : Chain × Nat} (hm : r.evMeta e = some m)
    (hu : r.unv e = []) (hc : Witness.hasConsensus r e m.1) :
    Witness.tryMakeProof c r e = Witness.markComplete
      { r with
        unv := upd r.unv e []
        proofs := ⟨e, m.1, m.2, r.vals, r.xvals, Witness.threshold r m.1, r.wit e⟩ :: r.proofs } e := by
  have hp : Witness.processUnverified c r e = { r with unv := upd r.unv e [] } := by
    unfold Witness.processUnverified; rw [hu]; rfl
  unfold Witness.tryMakeProof
  rw [hm]
  show Witness.makeProof (Witness.processUnverified c r e) e m = _
  rw [hp]
  unfold Witness.makeProof
  rw [if_pos (by exact hc)]
  rfl

theorem own_run {s : St} {ds cs rs : List Nat} {e : Nat} (h : Run s ds cs rs)
    (he : e ∉ ds) (hc : ¬ (e ∈ rs ∨ (1 < rs.length ∧ e ≤ rs.headD 0))) :
    Run (exec cfg0 s [own e]) (e :: ds) (noteComplete cs e)
      (Witness.compact (insertSorted e rs)) := by
  obtain ⟨f1, f2, f3, f4⟩ := h.fresh e he
  have hcs : ¬ isCompleted s.rcd e := by unfold isCompleted; rw [h.completed]; exact hc
  have hne : e ∉ s.rcd.completed := fun hm => hcs (Or.inl hm)
  obtain ⟨r, ps, hw, hr⟩ : ∃ r ps, Witness.step cfg0 s.rcd (.finalActive e .ethereum (1000 + e) 100 (1100 + e)) = .ok r ∧
      r = Witness.markComplete
        { s.rcd with
          finalised := e :: s.rcd.finalised
          evMeta := upd s.rcd.evMeta e (some (.ethereum, 1000 + e))
          wit := upd s.rcd.wit e [(0, 1100 + e)]
          seen := upd s.rcd.seen e [100]
          unv := upd s.rcd.unv e []
          proofs := ps } e := by
    refine ⟨_, ⟨e, .ethereum, 1000 + e, s.rcd.vals, s.rcd.xvals, s.rcd.thr,
      upd s.rcd.wit e [(0, 1100 + e)] e⟩ :: s.rcd.proofs, ?_, rfl⟩
    simp only [Witness.step, bind_ok, ensure_ok]
    refine ⟨(), by rw [h.finalised]; exact he, ?_⟩
    show Except.ok (handleWitness cfg0 (noteMeta { s.rcd with finalised := e :: s.rcd.finalised } e .ethereum (1000 + e))
      ⟨e, 100, 1000 + e, 1100 + e⟩) = _
    congr 1
    have hn : Witness.note cfg0 (noteMeta { s.rcd with finalised := e :: s.rcd.finalised } e .ethereum (1000 + e))
        ⟨e, 100, 1000 + e, 1100 + e⟩ = .ok
        { s.rcd with
          finalised := e :: s.rcd.finalised
          evMeta := upd s.rcd.evMeta e (some (.ethereum, 1000 + e))
          wit := upd s.rcd.wit e [(0, 1100 + e)]
          seen := upd s.rcd.seen e [100] } := by
      simp only [Witness.note, bind_ok, ensure_ok]
      refine ⟨(), hcs, (), by show 100 ∉ s.rcd.seen e; rw [f2]; simp, ?_⟩
      have hm : (noteMeta { s.rcd with finalised := e :: s.rcd.finalised } e .ethereum (1000 + e)).evMeta e =
          some (.ethereum, 1000 + e) := by
        show upd s.rcd.evMeta e (some ((s.rcd.evMeta e).getD (.ethereum, 1000 + e))) e = _
        rw [upd_same, f1]; rfl
      rw [hm]
      simp only [bind_ok, okOr_ok, ensure_ok, Witness.record, pure_ok]
      refine ⟨1000 + e, rfl, (), rfl, (), ?_, 0, ?_, ?_⟩
      · show (1100 + e == 100 + (1000 + e)) = true
        simp; omega
      · show authIndex s.rcd.vals 100 = some 0
        rw [h.vals]; rfl
      · unfold noteMeta
        dsimp only
        rw [f1, f2, f3]
        rfl
    unfold handleWitness
    rw [hn]
    exact tryMakeProof_ready (m := (.ethereum, 1000 + e)) (upd_same _ _ _) f4 (by
      show s.rcd.thr ≤ (upd s.rcd.wit e [(0, 1100 + e)] e).length
      rw [upd_same, h.thr]; simp)
  have hx : exec cfg0 s [own e] = worked s r e := by
    have hst : step cfg0 s (own e) = .ok (worked s r e) := by
      simp only [own, step, bind_ok, pure_ok]
      exact ⟨r, hw, rfl⟩
    unfold exec
    rw [hst]
    rfl
  rw [hx, hr]
  have hlt : s.rcd.done.length < (e :: s.rcd.done).length := by simp
  unfold worked
  rw [if_pos (by exact hlt)]
  refine ⟨h.vals, h.thr, h.finalized, ?_, ?_, ?_, ?_, ?_⟩
  · show e :: s.rcd.done = _; rw [h.done]
  · show e :: s.rcd.finalised = _; rw [h.finalised]
  · show noteComplete s.complete e = _; rw [h.complete]
  · show (if e ∈ s.rcd.completed then s.rcd.completed else _) = _
    rw [if_neg hne, h.completed]
  · intro x hx
    have hxe : x ≠ e := fun h => hx (by rw [h]; exact List.mem_cons_self)
    obtain ⟨g1, g2, g3, g4⟩ := h.fresh x (fun hm => hx (List.mem_cons_of_mem _ hm))
    refine ⟨?_, ?_, ?_, ?_⟩
    · show upd (upd s.rcd.evMeta e _) e none x = _
      rw [upd_ne _ _ hxe, upd_ne _ _ hxe]; exact g1
    · show upd (upd s.rcd.seen e _) e [] x = _
      rw [upd_ne _ _ hxe, upd_ne _ _ hxe]; exact g2
    · show upd (upd s.rcd.wit e _) e [] x = _
      rw [upd_ne _ _ hxe, upd_ne _ _ hxe]; exact g3
    · show upd (upd s.rcd.unv e _) e [] x = _
      rw [upd_ne _ _ hxe, upd_ne _ _ hxe]; exact g4

theorem insertSorted_last {x : Nat} : ∀ {l : List Nat}, (∀ y ∈ l, y < x) → insertSorted x l = l ++ [x]
  | [], _ => rfl
  | y :: l, h => by
    have h1 := h y List.mem_cons_self
    unfold insertSorted
    rw [if_neg (by omega), if_neg (by omega), insertSorted_last (fun z hz => h z (List.mem_cons_of_mem _ hz))]
    rfl

/-- Event 1, then `k` events from 10 on. -/
def early (k : Nat) : List Op := own 1 :: (List.range' 10 k).map own

theorem early_run : ∀ k, k ≤ 499 → Run (exec cfg0 n1 (early k)) ((1 :: List.range' 10 k).reverse)
    (1 :: List.range' 10 k) (1 :: List.range' 10 k)
  | 0, _ => by
    have h0 : Run n1 [] [] [] :=
      ⟨rfl, rfl, rfl, rfl, rfl, rfl, rfl, fun _ _ => ⟨rfl, rfl, rfl, rfl⟩⟩
    exact own_run (e := 1) h0 (by simp) (by simp)
  | k + 1, hk => by
    have ih := early_run k (by omega)
    have he : exec cfg0 n1 (early (k + 1)) = exec cfg0 (exec cfg0 n1 (early k)) [own (10 + k)] := by
      rw [← exec_append]
      congr 1
      unfold early
      rw [List.range'_concat, List.map_append, Nat.one_mul]
      rfl
    rw [he]
    have hlt : ∀ y ∈ 1 :: List.range' 10 k, y < 10 + k := by
      intro y hy
      rcases List.mem_cons.mp hy with rfl | hy
      · omega
      · exact (List.mem_range'_1.mp hy).2
    have hnot : 10 + k ∉ 1 :: List.range' 10 k := fun hm => by have := hlt _ hm; omega
    have hins : insertSorted (10 + k) (1 :: List.range' 10 k) = 1 :: List.range' 10 (k + 1) := by
      rw [insertSorted_last hlt, List.range'_concat, Nat.one_mul]; rfl
    have hr := own_run ih (e := 10 + k) (by rw [List.mem_reverse]; exact hnot) (by
      rintro (h | ⟨_, h⟩)
      · exact hnot h
      · simp only [List.headD_cons] at h; omega)
    have hcap : noteComplete (1 :: List.range' 10 k) (10 + k) = 1 :: List.range' 10 (k + 1) := by
      unfold noteComplete cacheMax
      rw [if_neg (by simp; omega), hins]
    have hcomp : Witness.compact (1 :: List.range' 10 (k + 1)) = 1 :: List.range' 10 (k + 1) := by
      cases k with
      | zero => rfl
      | succ k => rfl
    rw [hcap, hins, hcomp] at hr
    have hrev : (10 + k) :: (1 :: List.range' 10 k).reverse = (1 :: List.range' 10 (k + 1)).reverse := by
      rw [List.range'_concat, Nat.one_mul]
      simp
    rw [hrev] at hr
    exact hr

/-- C166 is false: events 1 and 10 to 508 are completed, then the delayed event 8, then event 509. The messages of
event 8 are kept and sent again. -/
theorem C166_forgotten_refuted : ∃ s, Reach cfg0 s ∧ s.rcd.done.take 2 = [509, 8] ∧ ¬ expired s (vote 8 100) ∧
    allowed s (vote 8 100) := by
  have h1 := early_run 499 (by omega)
  have h2 := own_run (e := 8) h1 (by rw [List.mem_reverse]; simp) (by simp)
  have e1 : noteComplete (1 :: List.range' 10 499) 8 = 8 :: List.range' 10 499 := by
    unfold noteComplete cacheMax
    rw [if_pos (by simp)]
    rfl
  have e2 : Witness.compact (insertSorted 8 (1 :: List.range' 10 499)) = 1 :: 8 :: List.range' 10 499 := rfl
  rw [e1, e2] at h2
  have h3 := own_run (e := 509) h2 (by simp) (by simp)
  have hc : 8 ∉ noteComplete (8 :: List.range' 10 499) 509 := by
    unfold noteComplete cacheMax
    rw [if_pos (by simp), mem_insertSorted]
    simp
  have hm : 8 ∉ (exec cfg0 (exec cfg0 (exec cfg0 n1 (early 499)) [own 8]) [own 509]).complete := by
    rw [h3.complete]; exact hc
  have ho : ¬ old (exec cfg0 (exec cfg0 (exec cfg0 n1 (early 499)) [own 8]) [own 509]) (vote 8 100) := by
    unfold old; rw [h3.finalized]; decide
  exact ⟨_, exec_reach _ (exec_reach _ (exec_reach _ (.init genesis_n1))), by rw [h3.done]; rfl,
    fun he => he.elim ho hm, ho, hm⟩

/-! ## C167 -/

/-- C167, part: per event, what is remembered is at most one entry for each validator there ever was.
Missing: a bound over all events (see `C167_memory_refuted`). -/
theorem C167_memory_partial {c : Cfg} {s : St} (h : Reach c s) (e : Nat) :
    (s.known e).Nodup ∧ ∀ a ∈ s.known e, a ∈ s.ever :=
  ⟨((reach_inv h).known e).imp (fun h => Nat.ne_of_lt h), fun a ha => ((reach_inv h).source e a ha).1⟩

/-- The same signed digest under the ids `0 … n - 1`. -/
def flood (w : Wit) (n : Nat) : List Op := (List.range n).map (fun e => .recv ⟨{ w with event := e }, 0⟩)

/-- C167 is false: one signed digest of one validator fills the memory. From any start, `n` messages that
anybody can make of it leave an entry for each of `n` events, none of which was ever requested, and the entries
stay whatever happens until a proof for their event is made. -/
theorem C167_memory_refuted {c : Cfg} {s : St} (hg : Genesis s) {w : Wit} (ha : w.auth ∈ s.active)
    (hv : c.verify w.auth w.sig w.digest = true) (n : Nat) :
    ∀ e < n, (exec c s (flood w n)).known e = [w.auth] := by
  have key : ∀ n, (∀ e, (exec c s (flood w n)).known e = if e < n then [w.auth] else []) ∧
      (exec c s (flood w n)).active = s.active := by
    intro n
    induction n with
    | zero =>
      refine ⟨fun e => ?_, rfl⟩
      rw [if_neg (by omega)]
      exact hg.known e
    | succ n ih =>
      have he : exec c s (flood w (n + 1)) = receive c (exec c s (flood w n)) ⟨{ w with event := n }, 0⟩ := by
        unfold flood
        rw [List.range_succ, List.map_append, exec_append]
        rfl
      generalize exec c s (flood w n) = t at he ih
      rw [he]
      refine ⟨fun e => ?_, ?_⟩
      · have hrem : remembers c t ⟨{ w with event := n }, 0⟩ := by
          refine ⟨?_, ?_, hv⟩
          · show w.auth ∉ t.known n
            rw [ih.1 n, if_neg (by omega)]
            simp
          · show w.auth ∈ t.active
            rw [ih.2]; exact ha
        rw [receive_known, if_pos hrem]
        show upd t.known n (insertSorted w.auth (t.known n)) e = _
        by_cases hen : e = n
        · subst hen
          rw [upd_same, ih.1 e, if_neg (by omega), if_pos (by omega)]
          rfl
        · rw [upd_ne _ _ hen, ih.1 e]
          by_cases hlt : e < n
          · rw [if_pos hlt, if_pos (by omega)]
          · rw [if_neg hlt, if_neg (by omega)]
      · rw [(receive_frame c t _).2.1]; exact ih.2
  intro e he
  rw [(key n).1 e, if_pos he]

/-- C167: what is remembered of an event goes only when its proof is made. -/
theorem C167_stays_refuted {c : Cfg} {s s' : St} {op : Op} {e a : Nat} (hk : a ∈ s.known e)
    (hs : step c s op = .ok s') (hd : s'.rcd.done = s.rcd.done ∨ e ∉ s'.rcd.done) : a ∈ s'.known e := by
  have hw : ∀ (t : St) (r : Witness.St) (x : Nat), t.rcd.done = s.rcd.done → DoneBy x t.rcd r → t.known = s.known →
      (r.done = s.rcd.done ∨ e ∉ r.done) → a ∈ (worked t r x).known e := by
    intro t r x ht hdb hkn hdr
    unfold worked
    split
    · rename_i hlt
      have hdone : r.done = x :: t.rcd.done := by
        rcases hdb with h1 | h1
        · rw [h1] at hlt; omega
        · exact h1
      have hex : e ≠ x := by
        rintro rfl
        rcases hdr with h1 | h1
        · rw [hdone, ht] at h1
          have := congrArg List.length h1
          simp at this
        · exact h1 (by rw [hdone]; exact List.mem_cons_self)
      show a ∈ upd t.known x [] e
      rw [upd_ne _ _ hex, hkn]; exact hk
    · show a ∈ t.known e
      rw [hkn]; exact hk
  cases op with
  | recv m =>
    simp only [step, Except.ok.injEq] at hs
    subst hs
    exact receive_known_mono hk
  | work =>
    unfold step at hs
    cases hi : s.inbox with
    | nil => rw [hi] at hs; cases hs; exact hk
    | cons m l =>
      rw [hi] at hs
      simp only [Except.ok.injEq] at hs
      subst hs
      rw [worked_rcd] at hd
      exact hw { s with inbox := l } _ _ rfl (handleWitness_done s.rcd m.wit) rfl hd
  | passive x ch data =>
    simp only [step, bind_ok, pure_ok] at hs
    obtain ⟨r, hr, rfl⟩ := hs
    rw [worked_rcd] at hd
    exact hw s r x rfl (step_done hr (Or.inl ⟨_, _, rfl⟩)) rfl hd
  | sign x ch data auth sig =>
    simp only [step, bind_ok, pure_ok] at hs
    obtain ⟨r, hr, rfl⟩ := hs
    rw [worked_rcd] at hd
    exact hw s r x rfl (step_done hr (Or.inr ⟨_, _, _, _, rfl⟩)) rfl hd
  | setVals vals thr xvals xthr =>
    simp only [step, bind_ok, pure_ok] at hs
    obtain ⟨r, hr, rfl⟩ := hs
    exact hk
  | finalize n =>
    simp only [step, Except.ok.injEq] at hs
    subst hs; exact hk

/-- Non-vacuity: the captured vote of validator 100 under a thousand ids. -/
example : ∀ e < 1000, (exec cfg0 n0 (flood (sgn 1 1001 100) 1000)).known e = [100] :=
  C167_memory_refuted genesis_n0 (by decide) (by decide) 1000

end Verif.Gossip
