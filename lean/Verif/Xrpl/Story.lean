import Verif.Xrpl.Demo

/-!
# Events of the XRPL bridge

The events that `/repo/pallet/xrpl-bridge/src/lib.rs` deposits about deposits and withdrawals of assets, as functions of the
state before and the operation. Left out: events of calls that change settings, requests about NFTs (`XrplTxSignRequest`), the
warning that tickets run out, the proof numbers in `WithdrawRequest` and the error in `ProcessingFailed`. `TransactionChallenge`
(212) is declared and nowhere deposited.
-/

namespace Verif.Xrpl

/-- 210-262. -/
inductive Ev where
  /-- `TransactionAdded` -/
  | added (i : Nat) (h : Hash)
  /-- `ProcessingOk` -/
  | processed (i : Nat) (h : Hash)
  /-- `ProcessingFailed` -/
  | failed (i : Nat) (h : Hash)
  /-- `WithdrawDelayed` -/
  | delayed (id block : Nat) (sender : Acct) (a : AssetId) (x : Nat) (dest : Addr)
  /-- `WithdrawRequest` -/
  | request (sender : Acct) (a : AssetId) (x : Nat) (dest : Addr)
deriving DecidableEq

/-- 899-935: one deposit. -/
def processEvs (c : Cfg) (x : Hash → Bool) (s : St) (h : Hash) : List Ev :=
  if s.challenged h = true then []
  else match s.details h with
    | none => []
    | some (i, d) =>
      match credit c s (x h) d with
      | .ok _ => [.processed i h]
      | .error _ => [.failed i h]

/-- 899-947: the deposits of a block, see `processList`. -/
def listEvs (c : Cfg) (x : Hash → Bool) : List Hash → St → List Ev
  | [], _ => []
  | h :: hs, s =>
    match processOne c x s h with
    | .ok s1 => processEvs c x s h ++ listEvs c x hs s1
    | .error _ => []

/-- 1473-1479: the request of a withdrawal. -/
def Wd.request (w : Wd) : Ev := .request w.sender w.asset w.amount w.dest

/-- 1033-1049 with 1473-1479: one delayed withdrawal, see `payOne`. -/
def payEvs (c : Cfg) (addr : Addr) (s : St) (id : Nat) : List Ev :=
  match s.payments id with
  | none => []
  | some w =>
    match send c { s with payments := upd s.payments id none } addr w with
    | .ok _ => [w.request]
    | .error _ => []

/-- The events of `payOne` for several payments, see `loopEvs`. -/
def payAllEvs (c : Cfg) (addr : Addr) : List Nat → St → List Ev
  | [], _ => []
  | i :: l, s => payEvs c addr s i ++ payAllEvs c addr l (payOne c addr s i)

/-- 1010-1070, see `delayLoop`. -/
def loopEvs (c : Cfg) (addr : Addr) (limit : Nat) : List Nat → St → List Ev
  | [], _ => []
  | k :: ks, s =>
    if s.ptr ≤ limit then
      if k < (s.sched s.ptr).length then
        payAllEvs c addr ((s.sched s.ptr).take k) { s with sched := upd s.sched s.ptr ((s.sched s.ptr).drop k) }
      else payAllEvs c addr (s.sched s.ptr) { s with
          sched := upd s.sched s.ptr []
          ptr := s.ptr + 1 } ++
        loopEvs c addr limit ks ((s.sched s.ptr).foldl (payOne c addr) { s with
          sched := upd s.sched s.ptr []
          ptr := s.ptr + 1 })
    else []

/-- 980-1088, see `delayed`. -/
def delayedEvs (c : Cfg) (ks : List Nat) (s : St) : List Ev :=
  match s.door .main with
  | none => []
  | some addr => loopEvs c addr (min s.now (s.ptr + c.blockLimit)) ks s

/-- The state in which the deposits of the next block are processed, see `block`. -/
def opened (c : Cfg) (s : St) (ks ps : List Nat) : St := { clear c ps (delayed c ks s) with now := s.now + 1 }

/-- 270-285: a block, see `block`. -/
def blockEvs (c : Cfg) (s : St) (ks ps : List Nat) (x : Hash → Bool) : List Ev :=
  delayedEvs c ks s ++ listEvs c x ((opened c s ks ps).proc (s.now + 1))
    { opened c s ks ps with proc := upd (opened c s ks ps).proc (s.now + 1) [] }

/-- 1214-1264 with 1441-1448 and 1473-1479: a withdrawal. -/
def withdrawEvs (c : Cfg) (s : St) (who : Acct) (a : AssetId) (x : Nat) (dest : Addr) : List Ev :=
  match saturate c s x a with
  | .error _ => []
  | .ok y =>
    match delayFor s a y with
    | some d => [.delayed s.nextId (min (s.now + d) (U32 - 1)) who a y dest]
    | none => [.request who a y dest]

/-- The events of an operation that succeeds. -/
def evs (c : Cfg) (s : St) : Op → List Ev
  | .submit _ i h _ => [.added i h]
  | .withdraw who a x dest _ => withdrawEvs c s who a x dest
  | .block ks ps x => blockEvs c s ks ps x
  | _ => []

/-- The events of an operation; one that fails leaves none. -/
def tell (c : Cfg) (s : St) (op : Op) : List Ev :=
  match step c s op with
  | .ok _ => evs c s op
  | .error _ => []

/-- The events of a history. -/
def story (c : Cfg) (s : St) : List Op → List Ev
  | [] => []
  | op :: ops => tell c s op ++ story c (after c s op) ops

/-! ## Specification: what a reader takes from the events -/

/-- Whether an event announces a payment handed to the signers. -/
def Ev.isRequest : Ev → Bool
  | .request _ _ _ _ => true
  | _ => false

/-- Whether a transaction handed to the signers pays something. -/
def Msg.pays (m : Msg) : Bool :=
  match m.body with
  | .xrp _ => true
  | .issued _ _ _ => true
  | _ => false

/-- The body of a transaction pays `x` of asset `a`, given the decimals of assets. At most `2^64 - 1` drops of XRP can be
paid. -/
def Body.carries (c : Cfg) (dec : AssetId → Nat) (a : AssetId) (x : Nat) : Body → Prop
  | .xrp n => a = c.xrp ∧ n = min x (U64 - 1)
  | .issued v e _ => a ≠ c.xrp ∧ Worth v e (dec a) x
  | _ => False

/-- A transaction and an event tell the same. -/
def Matches (c : Cfg) (dec : AssetId → Nat) (m : Msg) : Ev → Prop
  | .request _ a x dest => m.door = .main ∧ m.dest = dest ∧ m.body.carries c dec a x
  | _ => False

/-- The deposit an event says was credited: hash and ledger index. -/
def Ev.settled : Ev → Option (Hash × Nat)
  | .processed i h => some (h, i % U32)
  | _ => none

/-- The number under which a delayed withdrawal is announced. -/
def Ev.number : Ev → Option Nat
  | .delayed id _ _ _ _ _ => some id
  | _ => none

/-- The events announce that withdrawal `w` waits as number `i` for block `b`. -/
def Announced (es : List Ev) (i b : Nat) (w : Wd) : Prop := .delayed i b w.sender w.asset w.amount w.dest ∈ es

/-- Decimals are not changed. -/
def NoDec : St → Op → Prop
  | _, .setDec _ _ => False
  | _, _ => True

instance (s : St) (op : Op) : Decidable (NoDec s op) := by cases op <;> unfold NoDec <;> infer_instance

/-! ## Proofs -/

/-- What the events `es` tell about the change from `s` to `s'`. -/
structure Told (c : Cfg) (s s' : St) (es : List Ev) : Prop where
  dec : s'.dec = s.dec
  out : ∃ ms, s'.outbox = s.outbox ++ ms ∧ List.Forall₂ (Matches c s.dec) (ms.filter Msg.pays) (es.filter Ev.isRequest)
  done : s'.credited.map (fun y => (y.1, y.2.1)) = s.credited.map (fun y => (y.1, y.2.1)) ++ es.filterMap Ev.settled
  next : s.nextId ≤ s'.nextId ∧ es.filterMap Ev.number = List.range' s.nextId (s'.nextId - s.nextId)
  wait : ∀ i w, s'.payments i = some w → s.payments i = some w ∨ ∃ b, Announced es i b w

theorem Told.trans {c : Cfg} {s s1 s2 : St} {es fs : List Ev} (h : Told c s s1 es) (k : Told c s1 s2 fs) :
    Told c s s2 (es ++ fs) := by
  refine ⟨k.dec.trans h.dec, ?_, ?_, ⟨Nat.le_trans h.next.1 k.next.1, ?_⟩, fun i w hw => ?_⟩
  · obtain ⟨ms, e1, f1⟩ := h.out
    obtain ⟨ns, e2, f2⟩ := k.out
    refine ⟨ms ++ ns, by rw [e2, e1, List.append_assoc], ?_⟩
    rw [List.filter_append, List.filter_append]
    rw [h.dec] at f2
    exact List.rel_append f1 f2
  · rw [k.done, h.done, List.filterMap_append, List.append_assoc]
  · rw [List.filterMap_append, h.next.2, k.next.2]
    have := h.next.1
    have := k.next.1
    rw [show s2.nextId - s.nextId = (s1.nextId - s.nextId) + (s2.nextId - s1.nextId) by omega]
    rw [← List.range'_append_1, show s.nextId + (s1.nextId - s.nextId) = s1.nextId by omega]
  · rcases k.wait i w hw with h1 | ⟨b, h1⟩
    · rcases h.wait i w h1 with h2 | ⟨b, h2⟩
      · exact Or.inl h2
      · exact Or.inr ⟨b, List.mem_append_left _ h2⟩
    · exact Or.inr ⟨b, List.mem_append_right _ h1⟩

/-- Nothing that events are about changes. -/
theorem Told.same {c : Cfg} {s s' : St} (e1 : s'.dec = s.dec) (e2 : s'.outbox = s.outbox) (e3 : s'.credited = s.credited)
    (e4 : s'.nextId = s.nextId) (e5 : s'.payments = s.payments) : Told c s s' [] :=
  ⟨e1, ⟨[], by rw [e2, List.append_nil], .nil⟩, by rw [e3]; exact (List.append_nil _).symm,
    ⟨by rw [e4], by rw [e4, Nat.sub_self]; rfl⟩, fun i w hw => Or.inl (by rw [← e5]; exact hw)⟩

/-- Transactions that pay nothing need no events. -/
theorem Told.other {c : Cfg} {s s' : St} {ms : List Msg} (e1 : s'.dec = s.dec) (e2 : s'.outbox = s.outbox ++ ms)
    (hm : ms.filter Msg.pays = []) (e3 : s'.credited = s.credited) (e4 : s'.nextId = s.nextId) (e5 : s'.payments = s.payments) :
    Told c s s' [] :=
  ⟨e1, ⟨ms, e2, by rw [hm]; exact .nil⟩, by rw [e3]; exact (List.append_nil _).symm,
    ⟨by rw [e4], by rw [e4, Nat.sub_self]; rfl⟩, fun i w hw => Or.inl (by rw [← e5]; exact hw)⟩

/-- A withdrawal whose amount and currency fit. -/
def Wd.fits (c : Cfg) (w : Wd) : Prop := (w.cur ≠ none → Exact w.amount) ∧ (w.cur = none ↔ w.asset = c.xrp)

theorem msgOf_matches {c : Cfg} {dec : AssetId → Nat} {addr : Addr} {w : Wd} {m : Msg} (hf : w.fits c)
    (h : msgOf c dec addr w = some m) : m.pays = true ∧ Matches c dec m w.request := by
  unfold msgOf at h
  cases hc : w.cur with
  | none =>
    rw [hc] at h
    cases h
    exact ⟨rfl, rfl, rfl, hf.2.1 hc, rfl⟩
  | some cur =>
    rw [hc] at h
    simp only at h
    split at h
    · rename_i hd
      cases h
      have hm : mantExp w.amount (dec w.asset) = .ok ((shrink w.amount).1, ((shrink w.amount).2 : Int) - dec w.asset) := by
        unfold mantExp
        rw [ensure_pos hd.1]
        rfl
      refine ⟨rfl, rfl, rfl, fun e => ?_, (mantExp_worth hm (hf.1 (by rw [hc]; simp))).1⟩
      rw [hf.2.2 e] at hc
      cases hc
    · cases h

theorem payOne_told {c : Cfg} {addr : Addr} {s : St} (hP : PayExact c s) (id : Nat) :
    Told c s (payOne c addr s id) (payEvs c addr s id) := by
  unfold payOne payEvs
  cases hp : s.payments id with
  | none => exact .same rfl rfl rfl rfl rfl
  | some w =>
    have sub : ∀ i w, upd s.payments id none i = some w → s.payments i = some w := by
      intro i w h
      rw [upd_apply] at h
      split at h
      · cases h
      · exact h
    have he := send_eq c { s with payments := upd s.payments id none } addr w
    simp only
    cases hm : msgOf c s.dec addr w with
    | none =>
      simp only [hm] at he
      obtain ⟨e, he⟩ := he
      rw [he]
      exact ⟨rfl, ⟨[], (List.append_nil _).symm, .nil⟩, (List.append_nil _).symm, ⟨Nat.le_refl _, by rw [Nat.sub_self]; rfl⟩,
        fun i w h => Or.inl (sub i w h)⟩
    | some m =>
      simp only [hm] at he
      rw [he]
      obtain ⟨k1, k2⟩ := msgOf_matches (hP id w hp) hm
      refine ⟨rfl, ⟨[m], rfl, ?_⟩, (List.append_nil _).symm, ⟨Nat.le_refl _, by rw [Nat.sub_self]; rfl⟩,
        fun i w h => Or.inl (sub i w h)⟩
      rw [List.filter_cons, if_pos k1]
      exact .cons k2 .nil

theorem payOne_exact {c : Cfg} {addr : Addr} {s : St} (hP : PayExact c s) (id : Nat) : PayExact c (payOne c addr s id) := by
  intro i w h
  rw [(payOne_spec c addr s id).1, upd_apply] at h
  split at h
  · cases h
  · exact hP i w h

theorem payAll_told {c : Cfg} {addr : Addr} : ∀ (l : List Nat) {s : St}, PayExact c s →
    Told c s (l.foldl (payOne c addr) s) (payAllEvs c addr l s) ∧ PayExact c (l.foldl (payOne c addr) s)
  | [], s, hP => ⟨.same rfl rfl rfl rfl rfl, hP⟩
  | i :: l, s, hP => by
    obtain ⟨h1, h2⟩ := payAll_told (addr := addr) l (payOne_exact (addr := addr) hP i)
    exact ⟨(payOne_told hP i).trans h1, h2⟩

theorem delayLoop_told {c : Cfg} {addr : Addr} {limit : Nat} : ∀ (ks : List Nat) {s : St}, PayExact c s →
    Told c s (delayLoop c addr limit ks s) (loopEvs c addr limit ks s)
  | [], s, _ => .same rfl rfl rfl rfl rfl
  | k :: ks, s, hP => by
    unfold delayLoop loopEvs
    split
    · split
      · have h1 : Told c s { s with sched := upd s.sched s.ptr ((s.sched s.ptr).drop k) } [] := .same rfl rfl rfl rfl rfl
        exact h1.trans (payAll_told _ (s := { s with sched := upd s.sched s.ptr ((s.sched s.ptr).drop k) }) hP).1
      · have h1 : Told c s { s with
            sched := upd s.sched s.ptr []
            ptr := s.ptr + 1 } [] := .same rfl rfl rfl rfl rfl
        obtain ⟨h2, h3⟩ := payAll_told (addr := addr) (s.sched s.ptr) (s := { s with
            sched := upd s.sched s.ptr []
            ptr := s.ptr + 1 }) hP
        exact (h1.trans h2).trans (delayLoop_told ks h3)
    · exact .same rfl rfl rfl rfl rfl

theorem delayed_told {c : Cfg} {ks : List Nat} {s : St} (hP : PayExact c s) : Told c s (delayed c ks s) (delayedEvs c ks s) := by
  unfold delayed delayedEvs
  cases s.door .main with
  | none => exact .same rfl rfl rfl rfl rfl
  | some addr => exact delayLoop_told ks hP

theorem processOne_told {c : Cfg} {x : Hash → Bool} {s s' : St} {h : Hash} (hp : processOne c x s h = .ok s') :
    Told c s s' (processEvs c x s h) := by
  unfold processOne at hp
  unfold processEvs
  split at hp
  · rename_i hc
    rw [if_pos hc]
    cases hp
    exact .same rfl rfl rfl rfl rfl
  · rename_i hc
    rw [if_neg hc]
    cases hd : s.details h with
    | none =>
      rw [hd] at hp
      cases hp
      exact .same rfl rfl rfl rfl rfl
    | some y =>
      obtain ⟨i, d⟩ := y
      rw [hd] at hp
      simp only at hp ⊢
      cases hcr : credit c s (x h) d with
      | error e =>
        rw [hcr] at hp
        cases hp
        exact ⟨rfl, ⟨[], (List.append_nil _).symm, .nil⟩, (List.append_nil _).symm,
          ⟨Nat.le_refl _, by rw [Nat.sub_self]; rfl⟩, fun i w h => Or.inl h⟩
      | ok L =>
        rw [hcr] at hp
        simp only [bind_ok, ensure_ok, pure_ok] at hp
        obtain ⟨_, _, rfl⟩ := hp
        refine ⟨rfl, ⟨[], (List.append_nil _).symm, .nil⟩, ?_, ⟨Nat.le_refl _, by simp only [Nat.sub_self]; rfl⟩,
          fun i w h => Or.inl h⟩
        simp only [List.map_append, List.map_cons, List.map_nil]
        rfl

theorem processList_told {c : Cfg} {x : Hash → Bool} : ∀ (hs : List Hash) {s s' : St}, processList c x hs s = .ok s' →
    Told c s s' (listEvs c x hs s)
  | [], _, _, h => by cases h; exact .same rfl rfl rfl rfl rfl
  | h :: hs, s, s', hp => by
    simp only [processList, bind_ok] at hp
    obtain ⟨s1, h1, h2⟩ := hp
    unfold listEvs
    rw [h1]
    exact (processOne_told h1).trans (processList_told hs h2)

theorem block_list {c : Cfg} {s s' : St} {ks ps : List Nat} {x : Hash → Bool} (h : block c s ks ps x = .ok s') :
    processList c x ((opened c s ks ps).proc (s.now + 1))
      { opened c s ks ps with proc := upd (opened c s ks ps).proc (s.now + 1) [] } = .ok s' := by
  simp only [block, bind_ok, ensure_ok] at h
  obtain ⟨_, _, h⟩ := h
  exact h

theorem block_told {c : Cfg} {s s' : St} {ks ps : List Nat} {x : Hash → Bool} (hP : PayExact c s)
    (h : block c s ks ps x = .ok s') : Told c s s' (blockEvs c s ks ps x) := by
  have h1 := delayed_told (ks := ks) hP
  obtain ⟨d, st, p, e⟩ := clearLoop_frame (min (windowEnd (delayed c ks s)) (((delayed c ks s).pruned + c.maxPruned) % U32)) ps
    (delayed c ks s)
  have h2 : Told c (delayed c ks s) { opened c s ks ps with proc := upd (opened c s ks ps).proc (s.now + 1) [] } [] := by
    unfold opened clear
    rw [e]
    exact .same rfl rfl rfl rfl rfl
  exact h1.trans (h2.trans (processList_told _ (block_list h)))

/-- What a withdrawal announces, and that it is scheduled for the announced block. -/
theorem withdraw_told {c : Cfg} {s s' : St} {who : Acct} {a : AssetId} {x : Nat} {dest : Addr} {tag : Option Nat}
    (h : withdraw c s who a x dest tag = .ok s') : Told c s s' (withdrawEvs c s who a x dest) ∧
      ∀ i b w, Announced (withdrawEvs c s who a x dest) i b w → i ∈ s'.sched b := by
  obtain ⟨_, _, y, addr, r, t, hy, _, hr, ht, hh⟩ := withdraw_ok h
  obtain ⟨p, n, q, e⟩ := ticket_frame ht
  unfold withdrawEvs
  rw [hy]
  simp only
  rcases hh with ⟨d, hd, hh⟩ | ⟨hd, hh⟩
  · rw [hd]
    simp only [delayPayment, bind_ok, ensure_ok, pure_ok] at hh
    obtain ⟨_, _, _, _, rfl⟩ := hh
    rw [e]
    refine ⟨⟨rfl, ⟨[], (List.append_nil _).symm, .nil⟩, (List.append_nil _).symm, ⟨Nat.le_succ _, ?_⟩, fun i w hw => ?_⟩,
      fun i b w hA => ?_⟩
    · simp only [Nat.add_sub_cancel_left]
      rfl
    · simp only [upd_apply] at hw
      split at hw
      · rename_i ei
        subst ei
        cases hw
        exact Or.inr ⟨_, List.mem_singleton.2 rfl⟩
      · exact Or.inl hw
    · obtain ⟨rfl, rfl, _⟩ := Ev.delayed.inj (List.mem_singleton.1 hA)
      simp only [upd_same, List.mem_append, List.mem_singleton, or_true]
  · rw [hd]
    have he := send_eq c t.1 addr ⟨who, tag, s.fee .main, t.2, y, dest, a, r.2⟩
    cases hm : msgOf c t.1.dec addr ⟨who, tag, s.fee .main, t.2, y, dest, a, r.2⟩ with
    | none =>
      rw [hm] at he
      obtain ⟨e', he⟩ := he
      rw [he] at hh
      cases hh
    | some m =>
      rw [hm] at he
      simp only at he
      rw [he] at hh
      cases hh
      obtain ⟨c1, c2⟩ := take_cur hr
      obtain ⟨k1, k2⟩ := msgOf_matches (c := c) (w := ⟨who, tag, s.fee .main, t.2, y, dest, a, r.2⟩)
        ⟨fun hne => saturate_exact (fun e => hne (c1 e)) hy, fun hn => by
          by_contra hne
          exact (c2 hne).2 hn, c1⟩ hm
      rw [e] at k2 ⊢
      refine ⟨⟨rfl, ⟨[m], rfl, ?_⟩, (List.append_nil _).symm, ⟨Nat.le_refl _, by simp only [Nat.sub_self]; rfl⟩,
        fun i w h => Or.inl h⟩, fun i b w hA => ?_⟩
      · rw [List.filter_cons, if_pos k1]
        exact .cons k2 .nil
      · cases List.mem_singleton.1 hA

theorem signersOne_told {c : Cfg} {s s' : St} {d : Door} (h : signersOne s d = .ok s') : Told c s s' [] := by
  simp only [signersOne, bind_ok, okOr_ok, pure_ok] at h
  obtain ⟨a, _, t, ht, rfl⟩ := h
  obtain ⟨p, n, q, e⟩ := ticket_frame ht
  rw [e]
  exact .other (ms := [_]) rfl rfl rfl rfl rfl rfl

theorem signers_told (c : Cfg) (s : St) : Told c s (signers s) [] := by
  unfold signers
  split
  · exact .same rfl rfl rfl rfl rfl
  · rename_i s1 h1
    split
    · exact signersOne_told h1
    · rename_i s2 h2
      exact (signersOne_told h1).trans (signersOne_told h2)

theorem nftTx_told {c : Cfg} {s s' : St} {dest : Addr} (h : nftTx s dest = .ok s') : Told c s s' [] := by
  simp only [nftTx, bind_ok, okOr_ok, pure_ok] at h
  obtain ⟨a, _, t, ht, rfl⟩ := h
  obtain ⟨p, n, q, e⟩ := ticket_frame ht
  rw [e]
  exact .other (ms := [_]) rfl rfl rfl rfl rfl rfl

theorem step_told {c : Cfg} {s s' : St} {op : Op} (hP : PayExact c s) (hn : NoDec s op) (hs : step c s op = .ok s') :
    Told c s s' (evs c s op) := by
  cases op with
  | submit w i h d =>
    simp only [step, submit, bind_ok, ensure_ok, pure_ok] at hs
    obtain ⟨_, _, _, _, _, _, _, _, _, _, rfl⟩ := hs
    exact ⟨rfl, ⟨[], (List.append_nil _).symm, .nil⟩, (List.append_nil _).symm, ⟨Nat.le_refl _, by simp only [Nat.sub_self]; rfl⟩,
      fun i w h => Or.inl h⟩
  | withdraw w a x d t => exact (withdraw_told hs).1
  | block ks ps x => exact block_told hP hs
  | nftTx d => exact nftTx_told hs
  | signers =>
    cases hs
    exact signers_told c s
  | nextAlloc w d a b =>
    simp only [step, nextAlloc, bind_ok, ensure_ok, pure_ok] at hs
    obtain ⟨_, _, _, _, _, _, rfl⟩ := hs
    exact .same rfl rfl rfl rfl rfl
  | curAlloc d t a b =>
    simp only [step, curAlloc, bind_ok, ensure_ok, pure_ok] at hs
    obtain ⟨_, _, _, _, rfl⟩ := hs
    exact .same rfl rfl rfl rfl rfl
  | prune i =>
    simp only [step, prune, bind_ok, ensure_ok, pure_ok] at hs
    obtain ⟨_, _, _, _, rfl⟩ := hs
    exact .same rfl rfl rfl rfl rfl
  | setFee d x =>
    simp only [step, bind_ok, ensure_ok, pure_ok] at hs
    obtain ⟨_, _, rfl⟩ := hs
    exact .same rfl rfl rfl rfl rfl
  | removeMap a =>
    simp only [step, bind_ok, okOr_ok, pure_ok] at hs
    obtain ⟨_, _, rfl⟩ := hs
    exact .same rfl rfl rfl rfl rfl
  | setDec a n => exact hn.elim
  | _ =>
    cases hs
    exact .same rfl rfl rfl rfl rfl

/-- Only withdrawals announce numbers. -/
theorem step_place {c : Cfg} {s s' : St} {op : Op} (hP : PayExact c s) (hs : step c s op = .ok s') {i b : Nat} {w : Wd}
    (ha : Announced (evs c s op) i b w) : i ∈ s'.sched b := by
  cases op with
  | withdraw who a x d t => exact (withdraw_told hs).2 i b w ha
  | block ks ps x =>
    have hT := block_told hP hs
    have h1 := hT.next.2
    rw [(block_sched hs).2.2.2.1, Nat.sub_self] at h1
    have : i ∈ (blockEvs c s ks ps x).filterMap Ev.number := List.mem_filterMap.2 ⟨_, ha, rfl⟩
    rw [h1] at this
    cases this
  | submit w i h d => cases List.mem_singleton.1 ha
  | _ => cases ha

theorem story_told {c : Cfg} {g : St} : ∀ (ops : List Op) {s : St}, Reach c NoDec g s → Along c NoDec s ops →
    Told c s (exec c s ops) (story c s ops) ∧
    (∀ i w, (exec c s ops).payments i = some w → (s.payments i = some w ∧ ∀ b, i ∈ s.sched b → i ∈ (exec c s ops).sched b) ∨
      ∃ b, Announced (story c s ops) i b w ∧ i ∈ (exec c s ops).sched b)
  | [], s, _, _ => ⟨.same rfl rfl rfl rfl rfl, fun i w h => Or.inl ⟨h, fun _ h => h⟩⟩
  | op :: ops, s, hR, hA => by
    cases he : step c s op with
    | error e =>
      have ea : after c s op = s := by unfold after; rw [he]
      have hA' := hA.2
      rw [ea] at hA'
      have ex : exec c s (op :: ops) = exec c s ops := by simp only [exec, ea]
      have et : story c s (op :: ops) = story c s ops := by simp only [story, tell, he, ea, List.nil_append]
      rw [ex, et]
      exact story_told ops hR hA'
    | ok s' =>
      have ea : after c s op = s' := by unfold after; rw [he]
      have hA' := hA.2
      rw [ea] at hA'
      have hR' := Reach.step hR hA.1 he
      have ex : exec c s (op :: ops) = exec c s' ops := by simp only [exec, ea]
      have et : story c s (op :: ops) = evs c s op ++ story c s' ops := by simp only [story, tell, he, ea]
      have hT := step_told hR.exact hA.1 he
      obtain ⟨h1, h2⟩ := story_told ops hR' hA'
      rw [ex, et]
      refine ⟨hT.trans h1, fun i w hw => ?_⟩
      rcases h2 i w hw with ⟨k1, k2⟩ | ⟨b, k1, k2⟩
      · rcases hT.wait i w k1 with k3 | ⟨b, k3⟩
        · by_cases hi : i < s.nextId
          · obtain ⟨_, _, k4⟩ := step_payment hR.sis he i hi
            exact Or.inl ⟨k3, fun b hb => k2 b (k4 (by rw [k1]; simp) b hb)⟩
          · rw [hR.sis.si.ids i (by omega)] at k3
            cases k3
        · exact Or.inr ⟨b, List.mem_append_left _ k3, k2 b (step_place hR.exact he k3)⟩
      · exact Or.inr ⟨b, List.mem_append_right _ k1, k2⟩

/-! ## Deposits -/

theorem processEvs_details {c : Cfg} {x : Hash → Bool} {s : St} {h : Hash} {i : Nat} {g : Hash}
    (he : .processed i g ∈ processEvs c x s h ∨ .failed i g ∈ processEvs c x s h) : g = h ∧ ∃ d, s.details g = some (i, d) := by
  unfold processEvs at he
  split at he
  · rcases he with he | he <;> cases he
  · cases hd : s.details h with
    | none => rw [hd] at he; rcases he with he | he <;> cases he
    | some y =>
      obtain ⟨j, d⟩ := y
      rw [hd] at he
      simp only at he
      split at he
      · rcases he with he | he <;> cases List.mem_singleton.1 he
        exact ⟨rfl, d, hd⟩
      · rcases he with he | he <;> cases List.mem_singleton.1 he
        exact ⟨rfl, d, hd⟩

theorem listEvs_details {c : Cfg} {x : Hash → Bool} {i : Nat} {g : Hash} : ∀ (hs : List Hash) {s : St},
    (.processed i g ∈ listEvs c x hs s ∨ .failed i g ∈ listEvs c x hs s) → ∃ d, s.details g = some (i, d)
  | [], _, he => by rcases he with he | he <;> cases he
  | h :: hs, s, he => by
    unfold listEvs at he
    cases hp : processOne c x s h with
    | error e => rw [hp] at he; rcases he with he | he <;> cases he
    | ok s1 =>
      rw [hp] at he
      simp only [List.mem_append] at he
      have : (.processed i g ∈ processEvs c x s h ∨ .failed i g ∈ processEvs c x s h) ∨
          (.processed i g ∈ listEvs c x hs s1 ∨ .failed i g ∈ listEvs c x hs s1) := by tauto
      rcases this with h1 | h1
      · exact (processEvs_details h1).2
      · obtain ⟨d, hd⟩ := listEvs_details hs h1
        obtain ⟨L, st, hi, cr, rfl⟩ := processOne_frame hp
        exact ⟨d, hd⟩

/-- Deposits that wait in a list are answered, unless challenged. -/
theorem listEvs_answer {c : Cfg} {x : Hash → Bool} {g : Hash} {i : Nat} {d : Data} : ∀ (hs : List Hash) {s s' : St},
    processList c x hs s = .ok s' → g ∈ hs → s.challenged g = false → s.details g = some (i, d) →
    .processed i g ∈ listEvs c x hs s ∨ .failed i g ∈ listEvs c x hs s
  | [], _, _, _, hm, _, _ => by cases hm
  | h :: hs, s, s', hp, hm, hc, hd => by
    simp only [processList, bind_ok] at hp
    obtain ⟨s1, h1, h2⟩ := hp
    unfold listEvs
    rw [h1]
    simp only [List.mem_append]
    by_cases e : g = h
    · subst e
      unfold processEvs
      rw [hc, hd]
      simp only [Bool.false_eq_true, if_false]
      split
      · exact Or.inl (Or.inl (List.mem_singleton.2 rfl))
      · exact Or.inr (Or.inl (List.mem_singleton.2 rfl))
    · have hm' : g ∈ hs := by
        rcases List.mem_cons.1 hm with h | h
        · exact absurd h e
        · exact h
      obtain ⟨L, st, hi, cr, rfl⟩ := processOne_frame h1
      rcases listEvs_answer hs h2 hm' hc hd with h | h
      · exact Or.inl (Or.inr h)
      · exact Or.inr (Or.inr h)

theorem clearLoop_keeps (stop : Nat) : ∀ (ks : List Nat) {t : St}, DIs t → stop ≤ windowEnd t → ∀ b g, g ∈ t.proc b →
    (clearLoop stop ks t).details g = t.details g
  | [], _, _, _, _, _, _ => rfl
  | k :: ks, t, ht, hst, b, g, hg => by
    unfold clearLoop
    split
    · split
      · exact if_neg (fun hm => ht.disj b _ g hg (List.mem_of_mem_take hm))
      · have h2 := DI.forget ht (t.settled t.pruned).length (i := t.pruned) (by omega)
        rw [List.take_length, List.drop_length] at h2
        refine (clearLoop_keeps stop ks (t := { t with
          details := forget t.details (t.settled t.pruned)
          settled := upd t.settled t.pruned []
          pruned := t.pruned + 1 }) h2 hst b g hg).trans ?_
        exact if_neg (fun hm => ht.disj b _ g hg hm)
    · rfl

theorem forget_sub {d : Hash → Option (Nat × Data)} {l : List Hash} {h : Hash} {y : Nat × Data} (e : forget d l h = some y) :
    d h = some y := by
  unfold forget at e
  split at e
  · cases e
  · exact e

theorem clearLoop_sub (stop : Nat) {h : Hash} {y : Nat × Data} : ∀ (ks : List Nat) {t : St},
    (clearLoop stop ks t).details h = some y → t.details h = some y
  | [], _, e => e
  | k :: ks, t, e => by
    unfold clearLoop at e
    split at e
    · split at e
      · exact forget_sub e
      · exact forget_sub (clearLoop_sub stop ks e)
    · exact e

/-- The state in which the deposits of a block are processed. -/
theorem opened_parts (c : Cfg) (s : St) (ks ps : List Nat) : (opened c s ks ps).proc = s.proc ∧
    (opened c s ks ps).challenged = s.challenged ∧ (DIs s → ∀ b g, g ∈ s.proc b → (opened c s ks ps).details g = s.details g) ∧
    ∀ g y, (opened c s ks ps).details g = some y → s.details g = some y := by
  obtain ⟨p, o, l, sc, q, e⟩ := delayed_frame c ks s
  unfold opened clear
  rw [e]
  refine ⟨?_, ?_, fun hi b g hg => ?_, fun g y hy => ?_⟩
  · obtain ⟨d, st, pr, e'⟩ := clearLoop_frame (min (windowEnd s) ((s.pruned + c.maxPruned) % U32)) ps
      { s with payments := p, outbox := o, lost := l, sched := sc, ptr := q }
    exact (congrArg St.proc e' :)
  · obtain ⟨d, st, pr, e'⟩ := clearLoop_frame (min (windowEnd s) ((s.pruned + c.maxPruned) % U32)) ps
      { s with payments := p, outbox := o, lost := l, sched := sc, ptr := q }
    exact (congrArg St.challenged e' :)
  · exact clearLoop_keeps _ ps (t := { s with payments := p, outbox := o, lost := l, sched := sc, ptr := q }) hi
      (Nat.min_le_left _ _) b g hg
  · exact clearLoop_sub _ ps (t := { s with payments := p, outbox := o, lost := l, sched := sc, ptr := q }) hy

theorem block_details {c : Cfg} {s s' : St} {ks ps : List Nat} {x : Hash → Bool} (h : block c s ks ps x = .ok s') :
    s'.details = (opened c s ks ps).details ∧ s'.challenged = s.challenged ∧ s'.proc = upd s.proc (s.now + 1) [] := by
  obtain ⟨L, st, hi, cr, e⟩ := processList_frame _ (block_list h)
  rw [e]
  refine ⟨rfl, (opened_parts c s ks ps).2.1, ?_⟩
  simp only [(opened_parts c s ks ps).1]

/-- Transactions are known because they were submitted. -/
theorem step_known {c : Cfg} {s s' : St} {op : Op} (hs : step c s op = .ok s') {h : Hash} {i : Nat} {d : Data}
    (hd : s'.details h = some (i, d)) : s.details h = some (i, d) ∨ .added i h ∈ evs c s op := by
  cases op with
  | submit w j g e =>
    simp only [step, submit, bind_ok, ensure_ok, pure_ok] at hs
    obtain ⟨_, _, _, _, _, _, _, _, _, _, rfl⟩ := hs
    simp only [upd_apply] at hd
    split at hd
    · rename_i eh
      cases hd
      rw [eh]
      exact Or.inr (List.mem_singleton.2 rfl)
    · exact Or.inl hd
  | block ks ps x =>
    rw [(block_details hs).1] at hd
    exact Or.inl ((opened_parts c s ks ps).2.2.2 _ _ hd)
  | prune j =>
    simp only [step, prune, bind_ok, ensure_ok, pure_ok] at hs
    obtain ⟨_, _, _, _, rfl⟩ := hs
    exact Or.inl (forget_sub hd)
  | withdraw w a x e t => obtain ⟨_, _, _, _, _, _, _, _, rfl⟩ := withdraw_frame hs; exact Or.inl hd
  | nftTx e => obtain ⟨_, _, _, _, rfl⟩ := nftTx_frame hs; exact Or.inl hd
  | signers =>
    obtain ⟨_, _, _, _, e⟩ := signers_frame s
    simp only [step, e] at hs
    cases hs
    exact Or.inl hd
  | nextAlloc w d a b =>
    simp only [step, nextAlloc, bind_ok, ensure_ok, pure_ok] at hs
    obtain ⟨_, _, _, _, _, _, rfl⟩ := hs
    exact Or.inl hd
  | curAlloc d t a b =>
    simp only [step, curAlloc, bind_ok, ensure_ok, pure_ok] at hs
    obtain ⟨_, _, _, _, rfl⟩ := hs
    exact Or.inl hd
  | setFee d x =>
    simp only [step, bind_ok, ensure_ok, pure_ok] at hs
    obtain ⟨_, _, rfl⟩ := hs
    exact Or.inl hd
  | removeMap a =>
    simp only [step, bind_ok, okOr_ok, pure_ok] at hs
    obtain ⟨_, _, rfl⟩ := hs
    exact Or.inl hd
  | _ => cases hs; exact Or.inl hd

/-- An answer to a deposit: `processed` or `failed`. -/
def Answer (i : Nat) (h : Hash) (e : Ev) : Prop := e = .processed i h ∨ e = .failed i h

theorem payAllEvs_answer {c : Cfg} {addr : Addr} {i : Nat} {h : Hash} {e : Ev} (ha : Answer i h e) : ∀ (l : List Nat) {s : St},
    e ∉ payAllEvs c addr l s
  | [], _, hm => by cases hm
  | j :: l, s, hm => by
    rcases List.mem_append.1 hm with h1 | h1
    · unfold payEvs at h1
      split at h1
      · cases h1
      · split at h1
        · have := List.mem_singleton.1 h1
          rw [this] at ha
          rcases ha with ha | ha <;> cases ha
        · cases h1
    · exact payAllEvs_answer ha l h1

theorem loopEvs_answer {c : Cfg} {addr : Addr} {limit i : Nat} {h : Hash} {e : Ev} (ha : Answer i h e) :
    ∀ (ks : List Nat) {s : St}, e ∉ loopEvs c addr limit ks s
  | [], _, hm => by cases hm
  | k :: ks, s, hm => by
    unfold loopEvs at hm
    split at hm
    · split at hm
      · exact payAllEvs_answer ha _ hm
      · rcases List.mem_append.1 hm with h1 | h1
        · exact payAllEvs_answer ha _ h1
        · exact loopEvs_answer ha ks h1
    · cases hm

theorem delayedEvs_answer {c : Cfg} {ks : List Nat} {s : St} {i : Nat} {h : Hash} {e : Ev} (ha : Answer i h e) :
    e ∉ delayedEvs c ks s := by
  unfold delayedEvs
  cases s.door .main with
  | none => exact fun h => nomatch h
  | some addr => exact loopEvs_answer ha ks

/-- Only submitted transactions are answered. -/
theorem step_answer {c : Cfg} {s : St} {op : Op} {i : Nat} {h : Hash} {e : Ev} (ha : Answer i h e) (hm : e ∈ evs c s op) :
    ∃ d, s.details h = some (i, d) := by
  cases op with
  | block ks ps x =>
    rcases List.mem_append.1 hm with h1 | h1
    · exact absurd h1 (delayedEvs_answer ha)
    · obtain ⟨d, hd⟩ := listEvs_details (i := i) (g := h) _ (by
        rcases ha with ha | ha
        · rw [ha] at h1; exact Or.inl h1
        · rw [ha] at h1; exact Or.inr h1)
      exact ⟨d, (opened_parts c s ks ps).2.2.2 _ _ hd⟩
  | submit w j g d =>
    rw [List.mem_singleton.1 hm] at ha
    rcases ha with ha | ha <;> cases ha
  | withdraw w a x d t =>
    simp only [evs, withdrawEvs] at hm
    split at hm
    · cases hm
    · split at hm
      · rw [List.mem_singleton.1 hm] at ha
        rcases ha with ha | ha <;> cases ha
      · rw [List.mem_singleton.1 hm] at ha
        rcases ha with ha | ha <;> cases ha
  | _ => cases hm

theorem story_order {c : Cfg} {i : Nat} {h : Hash} {e : Ev} (ha : Answer i h e) : ∀ (ops : List Op) {s : St} {pre post : List Ev},
    story c s ops = pre ++ e :: post → (∃ d, s.details h = some (i, d)) ∨ .added i h ∈ pre
  | [], _, pre, post, he => by
    cases pre <;> cases he
  | op :: ops, s, pre, post, he => by
    unfold story tell after at he
    cases hs : step c s op with
    | error e' =>
      rw [hs] at he
      exact story_order ha ops he
    | ok s' =>
      rw [hs] at he
      simp only at he
      rcases List.append_eq_append_iff.1 he with ⟨as, h1, h2⟩ | ⟨bs, h1, h2⟩
      · rcases story_order ha ops h2 with ⟨d, hd⟩ | hm
        · rcases step_known hs hd with h3 | h3
          · exact Or.inl ⟨d, h3⟩
          · rw [h1]
            exact Or.inr (List.mem_append_left _ h3)
        · rw [h1]
          exact Or.inr (List.mem_append_right _ hm)
      · cases bs with
        | nil =>
          rw [List.nil_append] at h2
          rcases story_order (pre := []) ha ops h2.symm with ⟨d, hd⟩ | hm
          · rcases step_known hs hd with h3 | h3
            · exact Or.inl ⟨d, h3⟩
            · rw [List.append_nil] at h1
              rw [← h1]
              exact Or.inr h3
          · cases hm
        | cons b bs =>
          injection h2 with h3 h4
          subst h3
          exact Or.inl (step_answer ha (by rw [h1]; exact List.mem_append_right _ List.mem_cons_self))

/-! ## C245 -/

/-- C245: the requests tell all payments handed to the signers: which asset, how much, for whom, and in which order. Said of
histories in which no asset changes its decimals. -/
theorem C245_sent {c : Cfg} {g : St} {ops : List Op} (hg : Genesis g) (hA : Along c NoDec g ops) :
    List.Forall₂ (Matches c g.dec) ((exec c g ops).outbox.filter Msg.pays) ((story c g ops).filter Ev.isRequest) := by
  obtain ⟨ms, h1, h2⟩ := (story_told ops (.init hg) hA).1.out
  rw [h1, hg.outbox, List.nil_append]
  exact h2

/-- C245: delayed withdrawals are announced under consecutive numbers, each once. -/
theorem C245_numbers {c : Cfg} {g : St} {ops : List Op} (hg : Genesis g) (hA : Along c NoDec g ops) :
    (story c g ops).filterMap Ev.number = List.range' g.nextId ((exec c g ops).nextId - g.nextId) :=
  (story_told ops (.init hg) hA).1.next.2

/-- C245: every withdrawal that waits was announced, with sender, asset, amount and destination, and waits for the announced
block. -/
theorem C245_waiting {c : Cfg} {g : St} {ops : List Op} (hg : Genesis g) (hA : Along c NoDec g ops) {i : Nat} {w : Wd}
    (hw : (exec c g ops).payments i = some w) : ∃ b, Announced (story c g ops) i b w ∧ i ∈ (exec c g ops).sched b := by
  rcases (story_told ops (.init hg) hA).2 i w hw with ⟨h, _⟩ | h
  · rw [hg.payments] at h; cases h
  · exact h

/-- C245: the deposits credited are those of the events `ProcessingOk`, in that order, none of them twice. -/
theorem C245_credited {c : Cfg} {g : St} {ops : List Op} (hg : Genesis g) (hA : Along c NoDec g ops) :
    (exec c g ops).credited.map (fun y => (y.1, y.2.1)) = (story c g ops).filterMap Ev.settled ∧
    ((story c g ops).filterMap Ev.settled).Nodup := by
  have := (story_told ops (.init hg) hA).1.done
  rw [hg.credited] at this
  have h1 : (exec c g ops).credited.map (fun y => (y.1, y.2.1)) = (story c g ops).filterMap Ev.settled := this
  exact ⟨h1, h1 ▸ (exec_reach ops (.init hg) hA).di.once⟩

/-- C245: an answer to a deposit, good or bad, comes after the announcement of that deposit. -/
theorem C245_order {c : Cfg} {g : St} {ops : List Op} (hg : Genesis g) {pre post : List Ev} {i : Nat} {h : Hash} {e : Ev}
    (he : story c g ops = pre ++ e :: post) (ha : e = .processed i h ∨ e = .failed i h) : .added i h ∈ pre := by
  rcases story_order ha ops he with ⟨d, hd⟩ | hm
  · rw [hg.details] at hd; cases hd
  · exact hm

/-- A deposit that waits for block `b`. -/
structure Waits (s : St) (i : Nat) (h : Hash) (b : Nat) : Prop where
  inList : h ∈ s.proc b
  early : s.now < b
  known : ∃ d, s.details h = some (i, d)

theorem step_waits {c : Cfg} {s s' : St} {op : Op} {i b : Nat} {h : Hash} (hD : DIs s) (hW : Waits s i h b)
    (hs : step c s op = .ok s') :
    s'.challenged h = true ∨ (∃ e ∈ evs c s op, Answer i h e) ∨ Waits s' i h b := by
  obtain ⟨h1, h2, d, h3⟩ := hW
  cases op with
  | block ks ps x =>
    obtain ⟨k1, k2, k3⟩ := block_details hs
    obtain ⟨o1, o2, o3, _⟩ := opened_parts c s ks ps
    by_cases hb : b = s.now + 1
    · subst hb
      cases hc : s.challenged h with
      | true => exact Or.inl (by rw [k2]; exact hc)
      | false =>
        refine Or.inr (Or.inl ?_)
        have h4 : h ∈ (opened c s ks ps).proc (s.now + 1) := by rw [o1]; exact h1
        have h5 : (opened c s ks ps).details h = some (i, d) := by rw [o3 hD _ _ h1]; exact h3
        have h6 : (opened c s ks ps).challenged h = false := by rw [o2]; exact hc
        rcases listEvs_answer _ (block_list hs) h4 h6 h5 with h7 | h7
        · exact ⟨_, List.mem_append_right _ h7, Or.inl rfl⟩
        · exact ⟨_, List.mem_append_right _ h7, Or.inr rfl⟩
    · refine Or.inr (Or.inr ⟨?_, ?_, d, ?_⟩)
      · rw [k3, upd_ne _ _ hb]; exact h1
      · rw [(block_sched hs).2.2.2.2.1]; omega
      · rw [k1, o3 hD _ _ h1]; exact h3
  | submit w j g e =>
    simp only [step, submit, bind_ok, ensure_ok, pure_ok] at hs
    obtain ⟨_, _, _, _, _, _, _, hn, _, _, rfl⟩ := hs
    refine Or.inr (Or.inr ⟨?_, h2, d, ?_⟩)
    · simp only [upd_apply]
      split
      · rename_i eb
        rw [← eb]
        exact List.mem_append_left _ h1
      · exact h1
    · have ne : h ≠ g := fun e => by rw [← e, h3] at hn; cases hn
      exact (upd_ne _ _ ne).trans h3
  | prune j =>
    simp only [step, prune, bind_ok, ensure_ok, pure_ok] at hs
    obtain ⟨_, _, _, _, rfl⟩ := hs
    refine Or.inr (Or.inr ⟨h1, h2, d, ?_⟩)
    exact (if_neg (fun hm => hD.disj b _ h h1 hm)).trans h3
  | withdraw w a x e t =>
    obtain ⟨_, _, _, _, _, _, _, _, rfl⟩ := withdraw_frame hs
    exact Or.inr (Or.inr ⟨h1, h2, d, h3⟩)
  | nftTx e => obtain ⟨_, _, _, _, rfl⟩ := nftTx_frame hs; exact Or.inr (Or.inr ⟨h1, h2, d, h3⟩)
  | signers =>
    obtain ⟨_, _, _, _, e⟩ := signers_frame s
    simp only [step, e] at hs
    cases hs
    exact Or.inr (Or.inr ⟨h1, h2, d, h3⟩)
  | nextAlloc w d' a b' =>
    simp only [step, nextAlloc, bind_ok, ensure_ok, pure_ok] at hs
    obtain ⟨_, _, _, _, _, _, rfl⟩ := hs
    exact Or.inr (Or.inr ⟨h1, h2, d, h3⟩)
  | curAlloc d' t a b' =>
    simp only [step, curAlloc, bind_ok, ensure_ok, pure_ok] at hs
    obtain ⟨_, _, _, _, rfl⟩ := hs
    exact Or.inr (Or.inr ⟨h1, h2, d, h3⟩)
  | setFee d' x =>
    simp only [step, bind_ok, ensure_ok, pure_ok] at hs
    obtain ⟨_, _, rfl⟩ := hs
    exact Or.inr (Or.inr ⟨h1, h2, d, h3⟩)
  | removeMap a =>
    simp only [step, bind_ok, okOr_ok, pure_ok] at hs
    obtain ⟨_, _, rfl⟩ := hs
    exact Or.inr (Or.inr ⟨h1, h2, d, h3⟩)
  | _ => cases hs; exact Or.inr (Or.inr ⟨h1, h2, d, h3⟩)

theorem exec_challenged {c : Cfg} {h : Hash} : ∀ (ops : List Op) {s : St}, s.challenged h = true →
    (exec c s ops).challenged h = true
  | [], _, hc => hc
  | op :: ops, s, hc => by
    unfold exec after
    cases hs : step c s op with
    | error e => exact exec_challenged ops hc
    | ok s' => exact exec_challenged ops (step_challenged hs hc).1

theorem exec_waits {c : Cfg} {G : St → Op → Prop} {g : St} {i b : Nat} {h : Hash} : ∀ (ops : List Op) {s : St},
    Reach c G g s → Along c G s ops → Waits s i h b →
    (exec c s ops).challenged h = true ∨ (∃ e ∈ story c s ops, Answer i h e) ∨ Waits (exec c s ops) i h b
  | [], _, _, _, hW => Or.inr (Or.inr hW)
  | op :: ops, s, hR, hA, hW => by
    have hA' := hA.2
    unfold exec story tell
    unfold after at hA' ⊢
    cases hs : step c s op with
    | error e =>
      rw [hs] at hA'
      exact exec_waits ops hR hA' hW
    | ok s' =>
      rw [hs] at hA'
      simp only
      rcases step_waits hR.di hW hs with h1 | ⟨e, h1, h2⟩ | h1
      · exact Or.inl (exec_challenged ops h1)
      · exact Or.inr (Or.inl ⟨e, List.mem_append_left _ h1, h2⟩)
      · rcases exec_waits ops (.step hR hA.1 hs) hA' h1 with h2 | ⟨e, h2, h3⟩ | h2
        · exact Or.inl h2
        · exact Or.inr (Or.inl ⟨e, List.mem_append_right _ h2, h3⟩)
        · exact Or.inr (Or.inr h2)

/-- C245: a deposit announced in block `s.now` is answered by the end of the challenge period, with `ProcessingOk` or
`ProcessingFailed`, unless somebody has challenged it. -/
theorem C245_answered {c : Cfg} {G : St → Op → Prop} {g s s1 : St} {who : Acct} {i : Nat} {h : Hash} {d : Data} {ops : List Op}
    (hR : Reach c G g s) (hs : step c s (.submit who i h d) = .ok s1) (hG : G s (.submit who i h d)) (hA : Along c G s1 ops)
    (hp : 0 < c.period) (hn : s.now + c.period ≤ (exec c s1 ops).now) (hc : (exec c s1 ops).challenged h = false) :
    .processed i h ∈ story c s1 ops ∨ .failed i h ∈ story c s1 ops := by
  have hR1 := Reach.step hR hG hs
  simp only [step, submit, bind_ok, ensure_ok, pure_ok] at hs
  obtain ⟨_, _, _, _, _, _, _, _, _, _, e⟩ := hs
  have hW : Waits s1 i h (s.now + c.period) := by
    subst e
    refine ⟨?_, by simp only; omega, d, upd_same ..⟩
    simp only [upd_same, List.mem_append, List.mem_singleton, or_true]
  rcases exec_waits ops hR1 hA hW with h1 | ⟨e, h1, h2⟩ | h1
  · rw [hc] at h1; cases h1
  · rcases h2 with h2 | h2
    · exact Or.inl (h2 ▸ h1)
    · exact Or.inr (h2 ▸ h1)
  · have := h1.early
    omega

/-- C245 is false of challenged deposits: the deposit was announced, a stranger challenged it, and no event says so, then or
ever: the challenge and the end of the period leave none. -/
theorem C245_refuted : Reach cfg0 Any g0 disputed ∧ story cfg0 g0 [.submit 8 100 11 (.payment 50 7), .challenge 66 11] = [.added 100 11] ∧
    story cfg0 disputed [.block [5] [5] yes, .block [5] [5] yes, .block [5] [5] yes] = [] ∧
    (exec cfg0 disputed [.block [5] [5] yes, .block [5] [5] yes, .block [5] [5] yes]).now = 4 ∧
    (exec cfg0 disputed [.block [5] [5] yes, .block [5] [5] yes, .block [5] [5] yes]).credited = [] := by
  refine ⟨disputed_reach, ?_, ?_, ?_, ?_⟩ <;> decide +kernel

def lostOps : List Op := [.withdraw 5 4 25 800 none, .block [9] [] yes, .block [9, 9] [] yes, .block [9, 9] [] yes]
def lateOps : List Op := [.withdraw 5 4 25 800 none, .block [] [] yes, .block [] [] yes, .block [] [] yes]

/-- C245 is false of delayed withdrawals: that one could not be sent is not told. In one history the withdrawal of 25 still
waits, in the other it is lost; the events are the same. -/
theorem C245_lost_refuted : story cfg0 g0 lostOps = [.delayed 0 3 5 4 25 800] ∧ story cfg0 g0 lateOps = story cfg0 g0 lostOps ∧
    (exec cfg0 g0 lostOps).payments 0 = none ∧ (exec cfg0 g0 lostOps).outbox = [] ∧
    (exec cfg0 g0 lostOps).lost.map (fun w => (w.sender, w.amount)) = [(5, 25)] ∧
    ((exec cfg0 g0 lateOps).payments 0).map (fun w => (w.sender, w.amount)) = some (5, 25) ∧
    Genesis g0 ∧ Along cfg0 NoDec g0 lostOps ∧ Along cfg0 NoDec g0 lateOps := by
  refine ⟨by decide +kernel, by decide +kernel, by decide +kernel, by decide +kernel, by decide +kernel, by decide +kernel,
    g0_genesis, ?_, ?_⟩
  · refine ⟨?_, ?_, ?_, ?_, trivial⟩ <;> decide +kernel
  · refine ⟨?_, ?_, ?_, ?_, trivial⟩ <;> decide +kernel

/-- Deposits, one of an unknown kind, a withdrawal at once and one that waits. -/
def demoOps : List Op := [.submit 8 100 11 (.payment 50 7), .submit 8 4294967396 12 (.xls20 9 7), .withdraw 5 2 900 800 (some 4),
  .setDelay 3 (some (10, 2)), .withdraw 5 3 1234567890123456789012 801 none, .block [5] [5] (fun _ => false),
  .block [5] [5] (fun _ => false), .block [5, 5] [5] yes, .block [5, 5] [5] yes, .signers]

/-- Non-vacuity: a history with every kind of event. -/
example : Genesis g0 ∧ Along cfg0 NoDec g0 demoOps ∧ story cfg0 g0 demoOps =
    [.added 100 11, .added 4294967396 12, .request 5 2 900 800, .delayed 0 3 5 3 1234567890123456000000 801, .processed 100 11,
     .failed 4294967396 12, .request 5 3 1234567890123456000000 801] ∧
    ((exec cfg0 g0 demoOps).outbox.map Msg.dest) = [800, 801, 500, 600] := by
  refine ⟨g0_genesis, ?_, by decide +kernel, by decide +kernel⟩
  refine ⟨?_, ?_, ?_, ?_, ?_, ?_, ?_, ?_, ?_, ?_, trivial⟩ <;> decide +kernel

/-- Non-vacuity of `C245_answered`: the submission of the first deposit and what follows. -/
example : (step cfg0 g0 (.submit 8 100 11 (.payment 50 7))).isOk = true ∧ 0 < cfg0.period ∧
    g0.now + cfg0.period ≤ (exec cfg0 g0 demoOps).now ∧ (exec cfg0 g0 demoOps).challenged 11 = false := by
  refine ⟨?_, ?_, ?_, ?_⟩ <;> decide +kernel

end Verif.Xrpl
