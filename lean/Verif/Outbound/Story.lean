import Verif.Outbound.Inbound

/-!
# C260: the events of messages to Ethereum

/repo/pallet/ethy/src/impls.rs:952 `ProofDelayed`, 981 `EventSend`, 853-856 `AuthoritySetChange`, /repo/pallet/ethy/src/lib.rs:935
`BridgeManualPause`. Only the events of the bridge pallet are told, not those of the pallets that send.
-/

namespace Verif.Outbound

open Verif Abi

/-- Events of /repo/pallet/ethy/src/lib.rs that concern messages. -/
inductive Said where
  /-- `ProofDelayed` -/
  | delayed (id : Nat)
  /-- `EventSend` -/
  | send (id : Nat) (r : Req)
  /-- `AuthoritySetChange` -/
  | change (id setId : Nat)
  /-- `BridgeManualPause` -/
  | paused (b : Bool)
deriving DecidableEq

/-- impls.rs:944-983 `do_request_event_proof`: as `request`. -/
def requestTold (s : St) (r : Req) : List Said :=
  if paused s then [.delayed r.id]
  else [.send r.id (if s.setId > r.setId then { r with setId := s.setId } else r)]

/-- impls.rs:45-68 `send_event`: as `sendRaw`. -/
def sendTold (s : St) (source destination : Nat) (message : List Byte) : List Said :=
  if message.length ≤ maxEthData then requestTold (takeId s) ⟨source, destination, message, s.setId, s.nextId⟩ else []

/-- The messages of the ERC-20 peg, one after the other. -/
def pegTold (c : Cfg) : St → List (Nat × Erc20Peg.Wd) → List Said
  | _, [] => []
  | s, m :: ms => sendTold s c.peg m.1 (erc20Msg m.2) ++ pegTold c (sendErc20 c s m) ms

/-- nft-peg/src/lib.rs:447-456: the message of a withdrawal. -/
def nftTold (c : Cfg) (s : St) (r : NftPeg.St × NftPeg.Msg) : List Said :=
  sendTold { s with nft := r.1 } c.nftPeg r.2.contract (nftMsg r.2.groups r.2.dest)

/-- The events of an operation that succeeds. -/
def evs (c : Cfg) (s : St) : Op → List Said
  | .ping who dest => sendTold s who dest (echoMsg 0 s.session dest)
  | .peg o =>
    match Erc20Peg.step c.pegCfg s.peg o with
    | .ok p => pegTold c { s with peg := p } (p.outbox.drop s.peg.outbox.length)
    | .error _ => []
  | .nftWithdraw who colls serials dest =>
    match NftPeg.withdraw c.nftCfg s.nft who colls serials dest true with
    | .ok r => nftTold c s r
    | .error _ => []
  | .nftReclaim who b dest =>
    match NftPeg.reclaim s.nft who b dest true with
    | .ok r => nftTold c s r
    | .error _ => []
  | .setPaused b => [.paused b]
  | .handover keys =>
    sendTold s c.bridge s.contract (handoverMsg (keys.map (convert c)) ((s.setId + 1) % U64)) ++
      (if (handoverMsg (keys.map (convert c)) ((s.setId + 1) % U64)).length ≤ maxEthData then
        [.change s.nextId ((s.setId + 1) % U64)] else [])
  | .drain id =>
    match s.pending.find? (fun p => p.id = id) with
    | some r => requestTold { s with pending := s.pending.filter (fun p => p.id ≠ id) } r
    | none => []
  | .event src dst data =>
    if dst = c.echo then
      match wordAt data 0, wordAt data 32, decodeAddr data 64 with
      | some k, some n, some dest => if min k 255 = 1 then sendTold s src dest (echoMsg 1 (min n (U64 - 1)) dest) else []
      | _, _, _ => []
    else []
  | _ => []

/-- A history and its events, oldest first. Operations that fail leave no events. -/
inductive Tells (c : Cfg) (G : St → Op → Prop) (g : St) : St → List Said → Prop where
  | init : Genesis c g → g.manual = false → Tells c G g g []
  | step {s s' : St} {op : Op} {l : List Said} : Tells c G g s l → G s op → step c s op = .ok s' → Tells c G g s' (l ++ evs c s op)

/-! ## The reader -/

/-- What a reader keeps: the requests that were sent, newest first, the numbers of those that wait, the announced changes of validators,
and whether root paused the bridge. -/
structure View where
  sent : List Req
  waiting : List Nat
  changes : List (Nat × Nat)
  manual : Bool
deriving DecidableEq

def hear (v : View) : Said → View
  | .delayed id => { v with waiting := id :: v.waiting }
  | .send id r => { v with sent := r :: v.sent, waiting := v.waiting.filter (· ≠ id) }
  | .change id n => { v with changes := (id, n) :: v.changes }
  | .paused b => { v with manual := b }

def heard (l : List Said) : View := l.foldl hear ⟨[], [], [], false⟩

/-! ## Proofs -/

/-- What the reader knows. -/
structure Knows (s : St) (v : View) : Prop where
  next : s.nextId = s.taken % U64
  fresh : s.taken ≤ U64 → ∀ p ∈ s.pending, p.id < s.taken
  sent : v.sent = s.sent
  waiting : s.taken ≤ U64 → ∀ i, i ∈ v.waiting ↔ ∃ p ∈ s.pending, p.id = i
  manual : v.manual = s.manual
  changes : ∀ e ∈ v.changes, ∃ d keys, (e.1, Act.handover d keys e.2) ∈ s.log

theorem Knows.congr {s s' : St} {v : View} (h : Knows s v) (e1 : s'.nextId = s.nextId) (e2 : s'.taken = s.taken)
    (e3 : s'.pending = s.pending) (e4 : s'.sent = s.sent) (e5 : s'.manual = s.manual) (e6 : s'.log = s.log) : Knows s' v := by
  refine ⟨?_, ?_, ?_, ?_, ?_, ?_⟩
  · rw [e1, e2]; exact h.next
  · rw [e2, e3]; exact h.fresh
  · rw [e4]; exact h.sent
  · rw [e2, e3]; exact h.waiting
  · rw [e5]; exact h.manual
  · rw [e6]; exact h.changes

theorem Knows.session {s : St} {v : View} (h : Knows s v) (n : Nat) : Knows { s with session := n } v :=
  h.congr rfl rfl rfl rfl rfl rfl

theorem Knows.change {s : St} {v : View} (h : Knows s v) (b : Bool) : Knows { s with change := b } v :=
  h.congr rfl rfl rfl rfl rfl rfl

/-- One message. -/
theorem sendRaw_knows {s : St} {v : View} (h : Knows s v) (src dst : Nat) (msg : List Byte) (a : Act) :
    Knows (sendRaw s src dst msg a).1 ((sendTold s src dst msg).foldl hear v) := by
  unfold sendRaw sendTold
  split
  · have hn : (takeId s).nextId = (takeId s).taken % U64 := by
      show (s.nextId + 1) % U64 = (s.taken + 1) % U64
      rw [h.next]
      unfold U64
      omega
    have hid : s.taken + 1 ≤ U64 → s.nextId = s.taken := fun ht => by
      rw [h.next]
      exact Nat.mod_eq_of_lt ht
    have hc : ∀ e ∈ v.changes, ∃ d keys, (e.1, Act.handover d keys e.2) ∈ s.log ++ [(s.nextId, a)] := fun e he => by
      obtain ⟨d, keys, hk⟩ := h.changes e he
      exact ⟨d, keys, List.mem_append_left _ hk⟩
    unfold request requestTold
    split
    · refine ⟨hn, ?_, h.sent, ?_, h.manual, hc⟩
      · intro ht p hp
        have ht : s.taken + 1 ≤ U64 := ht
        show p.id < s.taken + 1
        rcases List.mem_cons.mp hp with rfl | hp
        · show s.nextId < s.taken + 1
          rw [hid ht]
          omega
        · have := h.fresh (by omega) p (List.mem_filter.mp hp).1
          omega
      · intro ht i
        have ht : s.taken + 1 ≤ U64 := ht
        show i ∈ s.nextId :: v.waiting ↔ ∃ p ∈ (⟨src, dst, msg, s.setId, s.nextId⟩ : Req) :: s.pending.filter (fun p => p.id ≠ s.nextId), p.id = i
        rw [List.mem_cons, h.waiting (by omega)]
        constructor
        · rintro (rfl | ⟨p, hp, rfl⟩)
          · exact ⟨_, List.mem_cons_self, rfl⟩
          · have := h.fresh (by omega) p hp
            refine ⟨p, List.mem_cons_of_mem _ (List.mem_filter.mpr ⟨hp, ?_⟩), rfl⟩
            simp only [ne_eq, decide_eq_true_eq]
            rw [hid ht]
            omega
        · rintro ⟨p, hp, rfl⟩
          rcases List.mem_cons.mp hp with rfl | hp
          · exact .inl rfl
          · exact .inr ⟨p, (List.mem_filter.mp hp).1, rfl⟩
    · refine ⟨hn, ?_, ?_, ?_, h.manual, hc⟩
      · intro ht p hp
        have ht : s.taken + 1 ≤ U64 := ht
        have := h.fresh (by omega) p hp
        show p.id < s.taken + 1
        omega
      · show _ :: v.sent = _ :: s.sent
        rw [h.sent]
      · intro ht i
        have ht : s.taken + 1 ≤ U64 := ht
        show i ∈ v.waiting.filter (· ≠ s.nextId) ↔ ∃ p ∈ s.pending, p.id = i
        rw [List.mem_filter, h.waiting (by omega)]
        constructor
        · exact fun q => q.1
        · rintro ⟨p, hp, rfl⟩
          have := h.fresh (by omega) p hp
          refine ⟨⟨p, hp, rfl⟩, ?_⟩
          simp only [ne_eq, decide_eq_true_eq]
          rw [hid ht]
          omega
  · refine ⟨?_, ?_, h.sent, ?_, h.manual, h.changes⟩
    · show (s.nextId + 1) % U64 = (s.taken + 1) % U64
      rw [h.next]
      unfold U64
      omega
    · intro ht p hp
      have ht : s.taken + 1 ≤ U64 := ht
      have := h.fresh (by omega) p hp
      show p.id < s.taken + 1
      omega
    · intro ht
      have ht : s.taken + 1 ≤ U64 := ht
      exact h.waiting (by omega)

theorem peg_knows (c : Cfg) : ∀ (ms : List (Nat × Erc20Peg.Wd)) {s : St} {v : View}, Knows s v →
    Knows (ms.foldl (sendErc20 c) s) ((pegTold c s ms).foldl hear v)
  | [], _, _, h => h
  | m :: ms, s, v, h => by
    unfold pegTold
    rw [List.foldl_append, List.foldl_cons]
    have h1 : Knows (sendErc20 c s m) ((sendTold s c.peg m.1 (erc20Msg m.2)).foldl hear v) := by
      unfold sendErc20
      exact sendRaw_knows h c.peg m.1 (erc20Msg m.2) (.erc20 m.1 m.2)
    exact peg_knows c ms h1

theorem send_knows {s s1 : St} {v : View} {src dst : Nat} {msg : List Byte} {a : Act} (h : Knows s v)
    (he : send s src dst msg a = .ok s1) : Knows s1 ((sendTold s src dst msg).foldl hear v) := by
  rw [(send_ok he).1]
  exact sendRaw_knows h src dst msg a

theorem sendNft_knows {c : Cfg} {s s' : St} {v : View} {r : NftPeg.St × NftPeg.Msg} (h : Knows s v) (he : sendNft c s r = .ok s') :
    Knows s' ((nftTold c s r).foldl hear v) := by
  unfold sendNft at he
  unfold nftTold
  rw [(send_ok he).1]
  have h1 : Knows { s with nft := r.1 } v := h.congr rfl rfl rfl rfl rfl rfl
  exact sendRaw_knows h1 c.nftPeg r.2.contract (nftMsg r.2.groups r.2.dest) (.nft r.2)

theorem drain_knows {s s' : St} {v : View} {id : Nat} (h : Knows s v) (he : drain s id = .ok s') : ∃ r,
    s.pending.find? (fun p => p.id = id) = some r ∧
      Knows s' ((requestTold { s with pending := s.pending.filter (fun p => p.id ≠ id) } r).foldl hear v) := by
  simp only [drain, bind_ok, ensure_ok, okOr_ok, pure_ok] at he
  obtain ⟨_, hp, r, hr, rfl⟩ := he
  refine ⟨r, hr, ?_⟩
  have hid : r.id = id := by simpa using List.find?_some hr
  subst hid
  unfold request requestTold
  have hp' : paused { s with pending := s.pending.filter (fun p => p.id ≠ r.id) } = false := hp
  rw [hp']
  refine ⟨h.next, ?_, ?_, ?_, h.manual, h.changes⟩
  · exact fun ht p q => h.fresh ht p (List.mem_filter.mp q).1
  · show _ :: v.sent = _ :: s.sent
    rw [h.sent]
  · intro ht i
    show i ∈ v.waiting.filter (· ≠ r.id) ↔ ∃ p ∈ s.pending.filter (fun p => p.id ≠ r.id), p.id = i
    rw [List.mem_filter, h.waiting ht]
    constructor
    · rintro ⟨⟨p, q1, rfl⟩, q2⟩
      exact ⟨p, List.mem_filter.mpr ⟨q1, q2⟩, rfl⟩
    · rintro ⟨p, q, rfl⟩
      exact ⟨⟨p, (List.mem_filter.mp q).1, rfl⟩, (List.mem_filter.mp q).2⟩

theorem event_knows {c : Cfg} {s s' : St} {v : View} {src dst : Nat} {data : List Byte} (h : Knows s v)
    (he : route c s src dst data = .ok s') : Knows s' ((evs c s (.event src dst data)).foldl hear v) := by
  unfold route at he
  simp only [evs]
  split at he
  · rename_i hd
    rw [if_pos hd]
    cases he
    unfold echoEvent
    cases wordAt data 0 with
    | none => exact h
    | some k =>
      cases wordAt data 32 with
      | none => exact h
      | some n =>
        cases decodeAddr data 64 with
        | none => exact h
        | some d =>
          simp only
          split
          · exact sendRaw_knows h ..
          · exact h
  · rename_i hd
    rw [if_neg hd]
    split at he
    · cases he
      unfold pegEvent
      split
      · exact h
      · split
        · exact h.congr rfl rfl rfl rfl rfl rfl
        · exact h
    · split at he
      · obtain ⟨n, rfl, _⟩ := nftEvent_frame he
        exact h.congr rfl rfl rfl rfl rfl rfl
      · cases he
        exact h

theorem change_knows {s : St} {v : View} (h : Knows s v) (src dst : Nat) (msg : List Byte) (d n : Nat) (keys : List Nat) :
    Knows { (sendRaw s src dst msg (.handover d keys n)).1 with change := true }
      ((sendTold s src dst msg ++ (if msg.length ≤ maxEthData then [Said.change s.nextId n] else [])).foldl hear v) := by
  have h1 := sendRaw_knows h src dst msg (.handover d keys n)
  have hl := sendRaw_log s src dst msg (.handover d keys n)
  rw [List.foldl_append]
  split
  · rename_i hm
    rw [if_pos hm] at hl
    refine ⟨h1.next, h1.fresh, h1.sent, h1.waiting, h1.manual, ?_⟩
    intro e q
    rcases List.mem_cons.mp q with rfl | q
    · refine ⟨d, keys, ?_⟩
      dsimp only
      rw [hl]
      exact List.mem_append_right _ (List.mem_singleton.mpr rfl)
    · exact h1.changes e q
  · exact h1.change true

theorem handover_knows (c : Cfg) {s : St} (keys : List Nat) {v : View} (h : Knows s v) :
    Knows (handleChange c s keys) ((evs c s (.handover keys)).foldl hear v) := by
  unfold handleChange
  simp only [evs]
  exact change_knows h c.bridge s.contract (handoverMsg (keys.map (convert c)) ((s.setId + 1) % U64)) s.contract
    ((s.setId + 1) % U64) keys

theorem step_knows {c : Cfg} {s s' : St} {op : Op} {v : View} (h : Knows s v) (he : step c s op = .ok s') :
    Knows s' ((evs c s op).foldl hear v) := by
  cases op with
  | ping who dest =>
    simp only [step, ping, bind_ok, ensure_ok, pure_ok] at he
    obtain ⟨_, _, s1, h1, rfl⟩ := he
    exact (send_knows h h1).session (s.session + 1)
  | peg o =>
    simp only [step, pegOp, bind_ok, pure_ok] at he
    obtain ⟨p, hp, rfl⟩ := he
    simp only [evs, hp]
    exact peg_knows c _ (s := { s with peg := p }) (h.congr rfl rfl rfl rfl rfl rfl)
  | nftWithdraw who colls serials dest =>
    simp only [step, nftWithdraw, bind_ok] at he
    obtain ⟨r, hr, he⟩ := he
    simp only [evs, hr]
    exact sendNft_knows h he
  | nftReclaim who b dest =>
    simp only [step, nftReclaim, bind_ok] at he
    obtain ⟨r, hr, he⟩ := he
    simp only [evs, hr]
    exact sendNft_knows h he
  | nftPallet o =>
    simp only [step, bind_ok, pure_ok] at he
    obtain ⟨n, _, rfl⟩ := he
    exact h.congr rfl rfl rfl rfl rfl rfl
  | setNftContract a =>
    cases he
    exact h.congr rfl rfl rfl rfl rfl rfl
  | setContract a =>
    cases he
    exact h.congr rfl rfl rfl rfl rfl rfl
  | setPaused b =>
    cases he
    exact ⟨h.next, h.fresh, h.sent, h.waiting, rfl, h.changes⟩
  | handover keys =>
    have e : handleChange c s keys = s' := Except.ok.inj he
    rw [← e]
    exact handover_knows c keys h
  | finalise =>
    have e : finalise s = s' := Except.ok.inj he
    rw [← e]
    exact h.congr rfl rfl rfl rfl rfl rfl
  | drain id =>
    obtain ⟨r, hr, hk⟩ := drain_knows h he
    simp only [evs, hr]
    exact hk
  | event src dst data => exact event_knows h he

theorem told_knows {c : Cfg} {G : St → Op → Prop} {g s : St} {l : List Said} (h : Tells c G g s l) : Knows s (heard l) := by
  induction h with
  | init hg hm =>
    refine ⟨by rw [hg.nextId, hg.taken]; rfl, ?_, hg.sent.symm, ?_, hm.symm, fun e he => by cases he⟩
    · rw [hg.pending]
      intro _ p hp
      cases hp
    · rw [hg.pending]
      exact fun _ i => ⟨fun q => (by cases q), fun ⟨_, q, _⟩ => (by cases q)⟩
  | step _ _ he ih =>
    unfold heard
    rw [List.foldl_append]
    exact step_knows ih he

theorem told_reach {c : Cfg} {G : St → Op → Prop} {g s : St} {l : List Said} (h : Tells c G g s l) : Reach c G g s := by
  induction h with
  | init hg _ => exact .init hg
  | step _ hG he ih => exact .step ih hG he

/-! ## The property -/

/-- **C260 (sent)** — the events tell exactly what validators were asked to sign, in order and with all parts, and whether root paused the
bridge. -/
theorem C260_sent {c : Cfg} {G : St → Op → Prop} {g s : St} {l : List Said} (h : Tells c G g s l) :
    (heard l).sent = s.sent ∧ (heard l).manual = s.manual := ⟨(told_knows h).sent, (told_knows h).manual⟩

/-- **C260 (waiting)** — the numbers told to be delayed and not told to be sent since are those of the requests that wait, as long as not
more than 2^64 numbers were taken. -/
theorem C260_waiting {c : Cfg} {G : St → Op → Prop} {g s : St} {l : List Said} (h : Tells c G g s l) (ht : s.taken ≤ U64) (i : Nat) :
    i ∈ (heard l).waiting ↔ ∃ r ∈ s.pending, r.id = i := (told_knows h).waiting ht i

/-- **C260 (changes)** — whoever hears of a change of validators can rely on it: under the number told there is a message of the bridge to
its contract, sent or waiting, that announces the set told with its validators. -/
theorem C260_change {c : Cfg} {g s : St} {l : List Said} (hc : CfgOk c) (h : Tells c (Env c) g s l) (ht : s.taken ≤ U64) {id n : Nat}
    (he : (id, n) ∈ (heard l).changes) : ∃ r ∈ s.sent ++ s.pending, r.id = id ∧ r.source = c.bridge ∧
      ∃ keys : List Nat, r.message = handoverMsg (keys.map (convert c)) n := by
  obtain ⟨d, keys, hk⟩ := (told_knows h).changes _ he
  have hi := Reach.inv hc (fun _ _ x => x) (told_reach h)
  have hm : keyOf c (id, .handover d keys n) ∈ (s.sent ++ s.pending).map key :=
    (hi.good.perm ht).symm.subset (List.mem_map_of_mem hk)
  obtain ⟨r, hr, e⟩ := List.mem_map.mp hm
  obtain ⟨e1, e2, _, e4⟩ : r.id = id ∧ r.source = c.bridge ∧ r.destination = d ∧ r.message = handoverMsg (keys.map (convert c)) n := by
    unfold key keyOf at e
    simp only [Prod.mk.injEq] at e
    exact e
  exact ⟨r, hr, e1, e2, keys, e4⟩

/-- Run operations and collect the events of those that succeed. -/
def story (c : Cfg) (s : St) : List Op → List Said
  | [] => []
  | op :: ops => (match step c s op with
    | .ok _ => evs c s op
    | .error _ => []) ++ story c (after c s op) ops

theorem exec_tells {c : Cfg} {G : St → Op → Prop} {g : St} : ∀ (ops : List Op) {s : St} {l : List Said}, Tells c G g s l →
    Along c G s ops → Tells c G g (exec c s ops) (l ++ story c s ops)
  | [], _, _, h, _ => by
    unfold story exec
    rw [List.append_nil]
    exact h
  | op :: ops, s, l, h, hg => by
    unfold exec story
    rw [← List.append_assoc]
    refine exec_tells ops ?_ hg.2
    unfold after
    cases he : step c s op with
    | ok s' => exact .step h hg.1 he
    | error _ =>
      rw [List.append_nil]
      exact h

/-- **C260 is false** of what waits: the events tell that something is delayed, not what it is. -/
theorem C260_content_refuted : ∃ (c : Cfg) (g s s' : St) (l : List Said), CfgOk c ∧ Tells c (Env c) g s l ∧ Tells c (Env c) g s' l ∧
    s.taken ≤ U64 ∧ s'.taken ≤ U64 ∧ s.pending.map Req.message ≠ s'.pending.map Req.message := by
  have h1 := exec_tells (G := Env c0) [.setPaused true, .ping 42 43] (.init g0_genesis rfl) ⟨trivial, ⟨out42, by decide +kernel⟩, trivial⟩
  have h2 := exec_tells (G := Env c0) [.setPaused true, .ping 42 44] (.init g0_genesis rfl) ⟨trivial, ⟨out42, by decide +kernel⟩, trivial⟩
  rw [show [] ++ story c0 g0 [.setPaused true, .ping 42 43] = [.paused true, .delayed 0] by decide +kernel] at h1
  rw [show [] ++ story c0 g0 [.setPaused true, .ping 42 44] = [.paused true, .delayed 0] by decide +kernel] at h2
  exact ⟨c0, g0, _, _, _, c0_ok, h1, h2, by decide +kernel, by decide +kernel, by decide +kernel⟩

/-- **C260 is false** of whether the bridge is open: the end of a change of validators has no event. -/
theorem C260_open_refuted : ∃ (c : Cfg) (g s s' : St) (l : List Said), CfgOk c ∧ Tells c (Env c) g s l ∧ Tells c (Env c) g s' l ∧
    paused s = true ∧ paused s' = false ∧ s.setId ≠ s'.setId := by
  have h1 := exec_tells (G := Env c0) [.handover [1, 2]] (.init g0_genesis rfl) ⟨trivial, trivial⟩
  have h2 := exec_tells (G := Env c0) [.handover [1, 2], .finalise] (.init g0_genesis rfl) ⟨trivial, trivial, trivial⟩
  rw [show [] ++ story c0 g0 [.handover [1, 2], .finalise] = [] ++ story c0 g0 [.handover [1, 2]] by decide +kernel] at h2
  exact ⟨c0, g0, _, _, _, c0_ok, h1, h2, by decide +kernel, by decide +kernel, by decide +kernel⟩

/-! ## Cases -/

theorem Along.env {c : Cfg} : ∀ {ops : List Op} {s : St}, Along c (Money c) s ops → Along c (Env c) s ops
  | [], _, _ => trivial
  | _ :: _, _, h => ⟨h.1.1, Along.env h.2⟩

theorem demo_tells : Tells c0 (Env c0) g0 demo (story c0 g0 demoOps) :=
  exec_tells demoOps (.init g0_genesis rfl) demo_money.env

/-- The history of `demoOps` as heard: six messages, the fifth of them delayed by the change of validators. -/
example : (story c0 g0 demoOps).map (fun
    | .delayed i => (0, i, 0)
    | .send i r => (1, i, r.setId)
    | .change i n => (2, i, n)
    | .paused _ => (3, 0, 0)) =
    [(1, 0, 3), (1, 1, 3), (1, 2, 3), (1, 3, 3), (2, 3, 4), (0, 4, 0), (1, 4, 4), (1, 5, 4)] := by decide +kernel
example := C260_sent demo_tells
example := C260_change c0_ok demo_tells (by decide +kernel) (id := 3) (n := 4) (by decide +kernel)
/-- Before the delayed message is sent. -/
example := (C260_waiting (exec_tells (demoOps.take 7) (.init g0_genesis rfl)
  (G := fun _ _ => True) ⟨trivial, trivial, trivial, trivial, trivial, trivial, trivial, trivial⟩) (by decide +kernel) 4).1
  (by decide +kernel)

end Verif.Outbound
