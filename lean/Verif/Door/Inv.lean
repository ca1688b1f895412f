import Verif.Door.Spec
import Verif.Xrpl.Sched
import Verif.Xrpl.Tickets

/-!
# What the operations do to the requests
-/

namespace Verif.Door

open Verif.Xrpl (Addr Msg Body)

/-! ## The bridge only adds transactions, lists of signers only at the handover -/

def Grow (o o' : List Msg) : Prop := ∃ new, o' = o ++ new ∧ ∀ m ∈ new, m.body ≠ .signers

theorem Grow.refl (o : List Msg) : Grow o o := ⟨[], by simp, by simp⟩

theorem Grow.trans {a b d : List Msg} (h : Grow a b) (h' : Grow b d) : Grow a d := by
  obtain ⟨n, rfl, h1⟩ := h
  obtain ⟨n', rfl, h2⟩ := h'
  refine ⟨n ++ n', by simp, fun m hm => ?_⟩
  rcases List.mem_append.mp hm with h3 | h3
  · exact h1 m h3
  · exact h2 m h3

theorem send_grow {c : Xrpl.Cfg} {s s' : Xrpl.St} {addr : Addr} {w : Xrpl.Wd} (h : Xrpl.send c s addr w = .ok s') :
    Grow s.outbox s'.outbox := by
  unfold Xrpl.send at h
  split at h
  · cases h; exact ⟨_, rfl, by simp⟩
  · simp only [bind_ok, ensure_ok, pure_ok] at h
    obtain ⟨_, _, _, _, rfl⟩ := h
    exact ⟨_, rfl, by simp⟩

theorem payOne_grow (c : Xrpl.Cfg) (addr : Addr) (s : Xrpl.St) (id : Nat) : Grow s.outbox (Xrpl.payOne c addr s id).outbox := by
  unfold Xrpl.payOne
  split
  · exact Grow.refl _
  · split
    · rename_i s1 hs
      exact send_grow (s := { s with payments := upd s.payments id none }) hs
    · exact Grow.refl _

theorem payAll_grow (c : Xrpl.Cfg) (addr : Addr) : ∀ (ids : List Nat) (s : Xrpl.St),
    Grow s.outbox (ids.foldl (Xrpl.payOne c addr) s).outbox
  | [], _ => Grow.refl _
  | id :: ids, s => (payOne_grow c addr s id).trans (payAll_grow c addr ids _)

theorem delayLoop_grow (c : Xrpl.Cfg) (addr : Addr) (limit : Nat) : ∀ (ks : List Nat) (s : Xrpl.St),
    Grow s.outbox (Xrpl.delayLoop c addr limit ks s).outbox
  | [], _ => Grow.refl _
  | k :: ks, s => by
    unfold Xrpl.delayLoop
    split
    · split
      · exact payAll_grow c addr _ _
      · exact Grow.trans (payAll_grow c addr (s.sched s.ptr) { s with
          sched := upd s.sched s.ptr []
          ptr := s.ptr + 1 }) (delayLoop_grow c addr limit ks _)
    · exact Grow.refl _

theorem delayed_grow (c : Xrpl.Cfg) (ks : List Nat) (s : Xrpl.St) : Grow s.outbox (Xrpl.delayed c ks s).outbox := by
  unfold Xrpl.delayed
  split
  · exact Grow.refl _
  · exact delayLoop_grow c _ _ ks s

theorem xstep_grow {c : Xrpl.Cfg} {s s' : Xrpl.St} {op : Xrpl.Op} (hn : isSigners op = false) (hs : Xrpl.step c s op = .ok s') :
    Grow s.outbox s'.outbox ∧ ((∀ d a, op ≠ .setDoor d a) → s'.door = s.door) := by
  cases op with
  | signers => cases hn
  | withdraw who a x dest tag =>
    simp only [Xrpl.step] at hs
    refine ⟨?_, fun _ => by obtain ⟨_, _, _, _, _, _, _, _, rfl⟩ := Xrpl.withdraw_frame hs; rfl⟩
    simp only [Xrpl.withdraw, bind_ok, ensure_ok, okOr_ok] at hs
    obtain ⟨_, _, _, _, y, _, addr, _, r, _, t, ht, h⟩ := hs
    obtain ⟨p, n, q, e⟩ := Xrpl.ticket_frame ht
    split at h
    · simp only [Xrpl.delayPayment, bind_ok, ensure_ok, pure_ok] at h
      obtain ⟨_, _, _, _, rfl⟩ := h
      rw [e]
      exact Grow.refl _
    · have := send_grow h
      rw [e] at this
      exact this
  | block ks ps x =>
    have h := Xrpl.block_sched hs
    refine ⟨?_, fun _ => h.2.2.2.2.2.2.2.2.2.2.2.2.1⟩
    rw [h.2.2.2.2.2.1]
    exact delayed_grow c ks s
  | nftTx d =>
    refine ⟨?_, fun _ => by obtain ⟨_, _, _, _, rfl⟩ := Xrpl.nftTx_frame hs; rfl⟩
    simp only [Xrpl.step, Xrpl.nftTx, bind_ok, okOr_ok, pure_ok] at hs
    obtain ⟨_, _, t, ht, rfl⟩ := hs
    obtain ⟨p, n, q, e⟩ := Xrpl.ticket_frame ht
    rw [e]
    exact ⟨_, rfl, by simp⟩
  | submit w i g d =>
    simp only [Xrpl.step, Xrpl.submit, bind_ok, ensure_ok, pure_ok] at hs
    obtain ⟨_, _, _, _, _, hw, _, hn, _, _, rfl⟩ := hs
    exact ⟨Grow.refl _, fun _ => rfl⟩
  | nextAlloc w d a b =>
    simp only [Xrpl.step, Xrpl.nextAlloc, bind_ok, ensure_ok, pure_ok] at hs
    obtain ⟨_, _, _, _, _, _, rfl⟩ := hs
    exact ⟨Grow.refl _, fun _ => rfl⟩
  | curAlloc d t a b =>
    simp only [Xrpl.step, Xrpl.curAlloc, bind_ok, ensure_ok, pure_ok] at hs
    obtain ⟨_, _, _, _, rfl⟩ := hs
    exact ⟨Grow.refl _, fun _ => rfl⟩
  | challenge w g => cases hs; exact ⟨Grow.refl _, fun _ => rfl⟩
  | prune i =>
    simp only [Xrpl.step, Xrpl.prune, bind_ok, ensure_ok, pure_ok] at hs
    obtain ⟨_, hi, _, _, rfl⟩ := hs
    exact ⟨Grow.refl _, fun _ => rfl⟩
  | setFee d x =>
    simp only [Xrpl.step, bind_ok, ensure_ok, pure_ok] at hs
    obtain ⟨_, _, rfl⟩ := hs
    exact ⟨Grow.refl _, fun _ => rfl⟩
  | removeMap a =>
    simp only [Xrpl.step, bind_ok, okOr_ok, pure_ok] at hs
    obtain ⟨_, _, rfl⟩ := hs
    exact ⟨Grow.refl _, fun _ => rfl⟩
  | setRelayer w b => cases hs; exact ⟨Grow.refl _, fun _ => rfl⟩
  | setDelay a v => cases hs; exact ⟨Grow.refl _, fun _ => rfl⟩
  | setDoor d a => cases hs; exact ⟨Grow.refl _, fun h => absurd rfl (h d a)⟩
  | setMap a cur => cases hs; exact ⟨Grow.refl _, fun _ => rfl⟩
  | ledger L => cases hs; exact ⟨Grow.refl _, fun _ => rfl⟩
  | setDec a n => cases hs; exact ⟨Grow.refl _, fun _ => rfl⟩

theorem signersOne_ok {s s' : Xrpl.St} {d : Xrpl.Door} (h : Xrpl.signersOne s d = .ok s') :
    s'.door = s.door ∧ ∃ m, s'.outbox = s.outbox ++ [m] ∧ m.body = .signers ∧ s.door d = some m.src := by
  obtain ⟨_, _, _, _, e0⟩ := Xrpl.signersOne_frame h
  simp only [Xrpl.signersOne, bind_ok, okOr_ok, pure_ok] at h
  obtain ⟨a, ha, t, ht, rfl⟩ := h
  obtain ⟨p, n, q, e⟩ := Xrpl.ticket_frame ht
  refine ⟨by rw [e0], ?_⟩
  rw [e]
  exact ⟨_, rfl, rfl, ha⟩

/-! ## Requests -/

theorem foldl_request : ∀ (l : List Req) (s : St), l.foldl request s = { s with
    requests := s.requests ++ l
    delayed := if paused s then s.delayed ++ l else s.delayed
    proofs := if paused s then s.proofs else s.proofs ++ l.map (fun r => (r, s.active)) }
  | [], s => by cases h : paused s <;> simp
  | r :: l, s => by
    rw [List.foldl_cons, foldl_request l]
    unfold request
    cases h : paused s
    · have : paused { s with requests := s.requests ++ [r], proofs := s.proofs ++ [(r, s.active)] } = false := h
      simp [this]
    · have : paused { s with requests := s.requests ++ [r], delayed := s.delayed ++ [r] } = true := h
      simp [this]

/-- The effect of handing over `l`. -/
def plus (s : St) (x' : Xrpl.St) (l : List Req) : St := { s with
    x := x'
    requests := s.requests ++ l
    delayed := if paused s then s.delayed ++ l else s.delayed
    proofs := if paused s then s.proofs else s.proofs ++ l.map (fun r => (r, s.active)) }

theorem post_eq {s : St} {x' : Xrpl.St} {l : List Addr} {q : Nat} {new : List Msg} (h : x'.outbox = s.x.outbox ++ new) :
    post s x' l q = plus s x' (new.map (fun m => (⟨m, l, q⟩ : Req))) := by
  unfold post
  rw [foldl_request, h, List.drop_left]
  rfl

theorem plus_plus (s : St) (x1 x2 : Xrpl.St) (l1 l2 : List Req) : plus (plus s x1 l1) x2 l2 = plus s x2 (l1 ++ l2) := by
  unfold plus
  cases h : paused s
  · have : paused { s with x := x1, requests := s.requests ++ l1, proofs := s.proofs ++ l1.map (fun r => (r, s.active)) } = false := h
    simp [this]
  · have : paused { s with x := x1, requests := s.requests ++ l1, delayed := s.delayed ++ l1 } = true := h
    simp [this]

/-- The handover adds up to one list for each door account. -/
theorem submitLists_eq (c : Cfg) (s : St) (keys : List Key) : ∃ x' l, (submitLists c s keys).1 = plus s x' l ∧
    x'.door = s.x.door ∧ x'.outbox = s.x.outbox ++ l.map (fun r => r.msg) ∧
    (∀ r ∈ l, r.msg.body = .signers ∧ r.list = keys.map c.addr ∧ r.quorum = keys.length - 1) ∧
    ((submitLists c s keys).2 = true → ∀ d a, s.x.door d = some a → ∃ r ∈ l, r.msg.src = a) := by
  unfold submitLists
  split
  · exact ⟨s.x, [], by simp [plus], rfl, by simp, by simp, by simp⟩
  · rename_i x1 h1
    obtain ⟨e1, m1, o1, b1, a1⟩ := signersOne_ok h1
    split
    · refine ⟨x1, [⟨m1, keys.map c.addr, keys.length - 1⟩], ?_, e1, by simp [o1], by simp [b1], by simp⟩
      exact post_eq o1
    · rename_i x2 h2
      obtain ⟨e2, m2, o2, b2, a2⟩ := signersOne_ok h2
      refine ⟨x2, [⟨m1, keys.map c.addr, keys.length - 1⟩, ⟨m2, keys.map c.addr, keys.length - 1⟩], ?_, e2.trans e1,
        by simp [o1, o2], by simp [b1, b2], ?_⟩
      · dsimp only
        rw [post_eq o1, post_eq (s := plus s x1 _) o2, plus_plus]
        rfl
      · intro _ d a hd
        cases d with
        | main =>
          rw [hd] at a1
          cases a1
          exact ⟨_, List.mem_cons_self, rfl⟩
        | nft =>
          rw [e1, hd] at a2
          cases a2
          exact ⟨_, List.mem_cons_of_mem _ List.mem_cons_self, rfl⟩

/-- The joint history is a history of the bridge: the handover does what `Verif.Xrpl.signers` says. -/
theorem submitLists_x (c : Cfg) (s : St) (keys : List Key) : (submitLists c s keys).1.x = Xrpl.signers s.x := by
  unfold submitLists Xrpl.signers
  split
  · rename_i e h1; rw [h1]
  · rename_i x1 h1
    obtain ⟨_, m1, o1, _, _⟩ := signersOne_ok h1
    rw [h1]
    dsimp only
    split
    · rename_i e h2
      rw [h2, post_eq o1]
      rfl
    · rename_i x2 h2
      obtain ⟨_, m2, o2, _, _⟩ := signersOne_ok h2
      rw [h2]
      dsimp only
      rw [post_eq o1, post_eq (s := plus s x1 _) o2]
      rfl

/-- What the change of authorities does. -/
theorem askLists_eq (c : Cfg) (s : St) : ∃ x' l, askLists c s = plus s x' l ∧
    x'.door = s.x.door ∧ x'.outbox = s.x.outbox ++ l.map (fun r => r.msg) ∧
    (∀ r ∈ l, r.msg.body = .signers ∧ r.list = (signersOf c s s.next).map c.addr ∧
      r.quorum = (signersOf c s s.next).length - 1) ∧
    ((signersOf c s s.next).Perm s.xrpl → l = []) ∧
    (CanAsk c s → ¬ (signersOf c s s.next).Perm s.xrpl → (∀ d a, s.x.door d = some a → ∃ r ∈ l, r.msg.src = a) ∧
      ∀ r ∈ l, (s.xl.acct r.msg.src).tickets r.msg.ticket = true) := by
  unfold askLists
  by_cases hp : (signersOf c s s.next).Perm s.xrpl
  · refine ⟨s.x, [], ?_, rfl, by simp, by simp, fun _ => rfl, fun _ h => absurd hp h⟩
    rw [if_pos (List.isPerm_iff.mpr hp)]
    simp [plus]
  · have hp' : ¬ (signersOf c s s.next).isPerm s.xrpl = true := fun h => hp (List.isPerm_iff.mp h)
    rw [if_neg hp']
    obtain ⟨x', l, h1, h2, h3, h4, h5⟩ := submitLists_eq c s (signersOf c s s.next)
    refine ⟨x', l, h1, h2, h3, h4, fun h => absurd h hp, fun hc _ => ?_⟩
    rcases hc with hc | ⟨hc, ht⟩
    · exact absurd hc hp
    · refine ⟨h5 hc, fun r hr => ht r ?_⟩
      rw [h1]
      show r ∈ (s.requests ++ l).drop s.requests.length
      rw [List.drop_left]
      exact hr

end Verif.Door
