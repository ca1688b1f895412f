import Verif.Erc20Peg.Effects

/-!
# Events of the ERC-20 bridge

The events that `/repo/pallet/erc20-peg/src/lib.rs` deposits, as functions of the state before and the operation. Events of
root's calls that change settings are left out, C231 is about those. `DelayedErc20WithdrawalFailed` does not occur, as
messages to Ethereum are always accepted (see Model.lean).
-/

namespace Verif.Erc20Peg

/-- 189-234. -/
inductive Ev where
  | depositDelayed (id block x : Nat) (ben : Acct) (a : AssetId)
  | withdrawalDelayed (id block x : Nat) (ben : Addr) (a : AssetId) (src : Acct)
  | depositFailed (id : Nat) (ben : Acct)
  | deposited (a : AssetId) (x : Nat) (ben : Acct)
  | withdrew (a : AssetId) (x : Nat) (ben : Addr) (src : Acct)
  | noIds
  | refused (src : Addr) (d : Dep)
deriving DecidableEq

/-- 801 in `process_deposit`. -/
def depositEvs (c : Cfg) (s : St) (d : Dep) : List Ev :=
  match assetFor c s d.token with
  | .ok r => [.deposited r.2 d.amount d.ben]
  | .error _ => []

/-- 621-626 in `process_withdrawal`. -/
def withdrawEvs (w : Wd) (a : AssetId) (sender : Acct) : List Ev := [.withdrew a w.amount w.ben sender]

/-- 631-665 `process_delayed_payment`. -/
def processEvs (c : Cfg) (s : St) (id : Nat) : List Ev :=
  match s.payments id with
  | none => []
  | some (.deposit d) =>
    match processDeposit c { s with payments := upd s.payments id none } d with
    | .ok _ => depositEvs c { s with payments := upd s.payments id none } d
    | .error _ => [.depositFailed id d.ben]
  | some (.withdrawal src w) =>
    match s.toAsset w.token with
    | some a => withdrawEvs w a src
    | none => []

/-- 696-719 in `delay_payment`: the announcement of a payment. -/
def announce (id block : Nat) (a : AssetId) : Payment → Ev
  | .withdrawal src w => .withdrawalDelayed id block w.amount w.ben a src
  | .deposit d => .depositDelayed id block d.amount d.ben a

/-- 668-720 `delay_payment`. -/
def delayEvs (s : St) (delay : Nat) (p : Payment) (a : AssetId) : List Ev :=
  if s.nextId + 1 < U64 then [announce s.nextId (min (s.now + delay) (U32 - 1)) a p] else [.noIds]

/-- Payments executed one after the other. -/
def foldEvs (c : Cfg) : List Nat → St → List Ev
  | [], _ => []
  | i :: l, s => processEvs c s i ++ foldEvs c l (process c s i)

/-- 301-328, see `idleLoop`. -/
def idleEvs (c : Cfg) (max : Nat) : List Nat → St → Nat → List Ev
  | [], _, _ => []
  | b :: bs, s, n =>
    let ids := (s.sched b).getD []
    let more := max - n < ids.length
    let s1 := { s with sched := upd s.sched b (if more then some (ids.drop (max - n)) else none) }
    let s2 := (ids.take (max - n)).foldl (process c) s1
    let n1 := n + (ids.take (max - n)).length
    foldEvs c (ids.take (max - n)) s1 ++ if max ≤ n1 then [] else idleEvs c max bs s2 n1

/-- 522-568 `do_withdrawal`. -/
def withdrawalEvs (s : St) (who : Acct) (a : AssetId) (x : Nat) (ben : Addr) : List Ev :=
  match s.toErc a with
  | none => []
  | some t =>
    match delayFor s s.wdDelay a x with
    | some d => delayEvs s d (.withdrawal who ⟨t, x, ben⟩) a
    | none => withdrawEvs ⟨t, x, ben⟩ a who

/-- 730-759 in `do_deposit`. -/
def doDepositEvs (c : Cfg) (s : St) (d : Dep) : List Ev :=
  match s.toAsset d.token with
  | none => depositEvs c s d
  | some a =>
    match delayFor s s.depDelay a d.amount with
    | some n => delayEvs s n (.deposit d) a
    | none => depositEvs c s d

/-- The events of an operation that succeeds. -/
def evs (c : Cfg) (s : St) : Op → List Ev
  | .withdraw who a x ben _ => withdrawalEvs s who a x ben
  | .deposit _ d => doDepositEvs c s d
  | .idle m => idleEvs c m s.ready s 0
  | .claim b id => processEvs c { s with sched := upd s.sched b (some (((s.sched b).getD []).erase id)) } id
  | _ => []

/-- The events of an operation that fails: 872-877, a deposit from one of the two contracts; the event router keeps what a
failing subscriber has deposited (`/repo/pallet/ethy/src/impls.rs`). -/
def failEvs (s : St) : Op → List Ev
  | .deposit src d => if src = s.contract ∨ src = s.rootContract then [.refused src d] else []
  | _ => []

/-- The events of an operation. -/
def tell (c : Cfg) (s : St) (op : Op) : List Ev :=
  match step c s op with
  | .ok _ => evs c s op
  | .error _ => failEvs s op

/-- The events of a history. -/
def story (c : Cfg) (s : St) : List Op → List Ev
  | [] => []
  | op :: ops => tell c s op ++ story c (after c s op) ops

/-! ## Specification: what a reader takes from the events -/

/-- A message to Ethereum: amount and beneficiary there. -/
def Ev.sent : Ev → Option (Nat × Addr)
  | .withdrew _ x ben _ => some (x, ben)
  | _ => none

/-- A delayed deposit that failed. -/
def Ev.lost : Ev → Option Acct
  | .depositFailed _ ben => some ben
  | _ => none

/-- The number under which a delayed payment is announced. -/
def Ev.number : Ev → Option Nat
  | .depositDelayed id _ _ _ _ => some id
  | .withdrawalDelayed id _ _ _ _ _ => some id
  | _ => none

/-- What `who` got of asset `a`. -/
def Ev.got (a : AssetId) (who : Acct) : Ev → Nat
  | .deposited b x ben => if b = a ∧ ben = who then x else 0
  | _ => 0

/-- What `who` got of asset `a` according to a list of events. -/
def gotBy (a : AssetId) (who : Acct) (es : List Ev) : Nat := (es.map (Ev.got a who)).sum

/-- The events announce payment `i`: for block `b`, with the amount and the people of `p`. -/
def Announced (es : List Ev) (i b : Nat) (p : Payment) : Prop := ∃ a, announce i b a p ∈ es

/-- A message to Ethereum and an event tell the same: asset, amount and beneficiary. -/
def Matches (s : St) (m : Addr × Wd) : Ev → Prop
  | .withdrew a x ben _ => s.toAsset m.2.token = some a ∧ m.2.amount = x ∧ m.2.ben = ben
  | _ => False

/-- Whether an event is about a message to Ethereum. -/
def Ev.isSent : Ev → Bool
  | .withdrew _ _ _ _ => true
  | _ => false

/-! ## Proofs -/

/-- What the events `es` tell about the change from `s` to `s'`. -/
structure Told (c : Cfg) (s s' : St) (es : List Ev) : Prop where
  keep : ∀ t a, s.toAsset t = some a → s'.toAsset t = some a
  out : ∃ ms, s'.outbox = s.outbox ++ ms ∧ List.Forall₂ (Matches s') ms (es.filter Ev.isSent)
  lost : s'.failed.map Dep.ben = s.failed.map Dep.ben ++ es.filterMap Ev.lost
  next : s.nextId ≤ s'.nextId ∧ es.filterMap Ev.number = List.range' s.nextId (s'.nextId - s.nextId)
  paid : ∀ a who, (a = c.native → who ≠ c.peg) → s'.ledger.bal a who = s.ledger.bal a who + gotBy a who es
  wait : ∀ i p, s'.payments i = some p → s.payments i = some p ∨ ∃ b, Announced es i b p

theorem Matches.mono {s s' : St} (h : ∀ t a, s.toAsset t = some a → s'.toAsset t = some a) {m : Addr × Wd} {e : Ev}
    (hm : Matches s m e) : Matches s' m e := by
  cases e <;> simp only [Matches] at hm ⊢
  exact ⟨h _ _ hm.1, hm.2⟩

theorem Announced.left {es fs : List Ev} {i b : Nat} {p : Payment} (h : Announced es i b p) : Announced (es ++ fs) i b p :=
  h.imp (fun _ h => List.mem_append_left _ h)

theorem Announced.right {es fs : List Ev} {i b : Nat} {p : Payment} (h : Announced fs i b p) : Announced (es ++ fs) i b p :=
  h.imp (fun _ h => List.mem_append_right _ h)

theorem gotBy_append (a : AssetId) (who : Acct) (es fs : List Ev) : gotBy a who (es ++ fs) = gotBy a who es + gotBy a who fs := by
  simp only [gotBy, List.map_append, List.sum_append]

theorem Told.trans {c : Cfg} {s s1 s2 : St} {es fs : List Ev} (h : Told c s s1 es) (k : Told c s1 s2 fs) :
    Told c s s2 (es ++ fs) := by
  refine ⟨fun t a ht => k.keep t a (h.keep t a ht), ?_, ?_, ⟨Nat.le_trans h.next.1 k.next.1, ?_⟩, fun a who hw => ?_,
    fun i p hp => ?_⟩
  · obtain ⟨ms, e1, f1⟩ := h.out
    obtain ⟨ns, e2, f2⟩ := k.out
    refine ⟨ms ++ ns, by rw [e2, e1, List.append_assoc], ?_⟩
    rw [List.filter_append]
    exact List.rel_append (f1.imp (fun _ _ => Matches.mono k.keep)) f2
  · rw [k.lost, h.lost, List.filterMap_append, List.append_assoc]
  · rw [List.filterMap_append, h.next.2, k.next.2]
    have := h.next.1
    have := k.next.1
    rw [show s2.nextId - s.nextId = (s1.nextId - s.nextId) + (s2.nextId - s1.nextId) by omega]
    rw [← List.range'_append_1, show s.nextId + (s1.nextId - s.nextId) = s1.nextId by omega]
  · rw [k.paid a who hw, h.paid a who hw, gotBy_append, Nat.add_assoc]
  · rcases k.wait i p hp with h1 | ⟨b, h1⟩
    · rcases h.wait i p h1 with h2 | ⟨b, h2⟩
      · exact Or.inl h2
      · exact Or.inr ⟨b, h2.left⟩
    · exact Or.inr ⟨b, h1.right⟩

/-- Nothing that events are about changes. -/
theorem Told.same {c : Cfg} {s s' : St} (e1 : s'.toAsset = s.toAsset) (e2 : s'.outbox = s.outbox) (e3 : s'.failed = s.failed)
    (e4 : s'.nextId = s.nextId) (e5 : s'.ledger = s.ledger) (e6 : ∀ i p, s'.payments i = some p → s.payments i = some p) :
    Told c s s' [] := by
  refine ⟨fun t a ht => by rw [e1]; exact ht, ⟨[], by rw [e2, List.append_nil], .nil⟩, by rw [e3]; exact (List.append_nil _).symm,
    ⟨by rw [e4], by rw [e4, Nat.sub_self]; rfl⟩, fun a who _ => by rw [e5]; rfl, fun i p hp => Or.inl (e6 i p hp)⟩

theorem processDeposit_told {c : Cfg} {s s' : St} {d : Dep} (h : processDeposit c s d = .ok s') :
    Told c s s' (depositEvs c s d) := by
  simp only [processDeposit, bind_ok, pure_ok] at h
  obtain ⟨⟨s1, a⟩, hr, L, hL, rfl⟩ := h
  have hc := credited hL
  unfold depositEvs
  rw [hr]
  simp only at hc ⊢
  have key : (∀ t b, s.toAsset t = some b → s1.toAsset t = some b) ∧ s1.outbox = s.outbox ∧ s1.failed = s.failed ∧
      s1.nextId = s.nextId ∧ s1.ledger = s.ledger ∧ s1.payments = s.payments := by
    unfold assetFor at hr
    split at hr
    · cases hr; exact ⟨fun _ _ h => h, rfl, rfl, rfl, rfl, rfl⟩
    · rename_i hn
      simp only [bind_ok, pure_ok] at hr
      obtain ⟨b, _, e⟩ := hr
      cases e
      refine ⟨fun t b' ht => ?_, rfl, rfl, rfl, rfl, rfl⟩
      have ne : t ≠ d.token := fun e => by rw [e, hn] at ht; cases ht
      exact (upd_ne _ _ ne).trans ht
  obtain ⟨k1, k2, k3, k4, k5, k6⟩ := key
  refine ⟨k1, ⟨[], by simp only [k2, List.append_nil], .nil⟩, by simp only [k3]; exact (List.append_nil _).symm,
    ⟨by simp only [k4]; exact Nat.le_refl _, by simp only [k4, Nat.sub_self]; rfl⟩, fun b who hw => ?_,
    fun i p hp => Or.inl (by simp only [k6] at hp; exact hp)⟩
  simp only [gotBy, List.map_cons, List.map_nil, List.sum_cons, List.sum_nil, Ev.got, Nat.add_zero]
  obtain ⟨h1, h2⟩ := hc
  rw [k5] at h1 h2
  by_cases hb : b = a
  · subst hb
    split at h2
    · rename_i hn
      have := h2.2.2 who
      rw [if_neg (hw hn)] at this
      simp only [true_and]
      rw [Nat.add_zero] at this
      rw [this]
      by_cases e : who = d.ben
      · subst e; simp
      · simp [e, Ne.symm e]
    · rw [h2.2 who]
      by_cases e : who = d.ben
      · subst e; simp
      · simp [e, Ne.symm e]
  · rw [(h1 b hb).1]
    simp [Ne.symm hb]

theorem process_told (c : Cfg) (s : St) (id : Nat) : Told c s (process c s id) (processEvs c s id) := by
  unfold process processEvs
  cases hp : s.payments id with
  | none => exact .same rfl rfl rfl rfl rfl (fun _ _ h => h)
  | some p =>
    have sub : ∀ i p, upd s.payments id none i = some p → s.payments i = some p := by
      intro i p h
      simp only [upd_apply] at h
      split at h
      · cases h
      · exact h
    have drop : Told c s { s with payments := upd s.payments id none } [] := .same rfl rfl rfl rfl rfl sub
    cases p with
    | deposit d =>
      simp only
      cases hd : processDeposit c { s with payments := upd s.payments id none } d with
      | ok s1 =>
        simp only
        exact drop.trans (processDeposit_told hd)
      | error e =>
        simp only
        refine ⟨fun _ _ h => h, ⟨[], (List.append_nil _).symm, .nil⟩, ?_, ⟨Nat.le_refl _, by rw [Nat.sub_self]; rfl⟩, fun _ _ _ => rfl,
          fun i p h => Or.inl (sub i p h)⟩
        simp only [List.map_append, List.map_cons, List.map_nil]
        rfl
    | withdrawal src w =>
      simp only
      cases hw : s.toAsset w.token with
      | none => exact drop
      | some a =>
        refine ⟨fun _ _ h => h, ⟨[_], rfl, ?_⟩, (List.append_nil _).symm, ⟨Nat.le_refl _, ?_⟩, fun _ _ _ => rfl,
          fun i p h => Or.inl (sub i p h)⟩
        · exact .cons ⟨hw, rfl, rfl⟩ .nil
        · simp only [processWithdrawal, Nat.sub_self]; rfl

theorem fold_told (c : Cfg) : ∀ (l : List Nat) (s : St), Told c s (l.foldl (process c) s) (foldEvs c l s)
  | [], s => .same rfl rfl rfl rfl rfl (fun _ _ h => h)
  | i :: l, s => (process_told c s i).trans (fold_told c l _)

theorem idleLoop_told (c : Cfg) (max : Nat) : ∀ (bs : List Nat) (s : St) (n k : Nat),
    Told c s (idleLoop c max bs s n k).1 (idleEvs c max bs s n)
  | [], s, n, k => .same rfl rfl rfl rfl rfl (fun _ _ h => h)
  | b :: bs, s, n, k => by
    simp only [idleLoop, idleEvs]
    generalize hs1 : { s with sched := upd s.sched b (if max - n < ((s.sched b).getD []).length then
      some (((s.sched b).getD []).drop (max - n)) else none) } = s1
    have h1 : Told c s s1 [] := by subst hs1; exact .same rfl rfl rfl rfl rfl (fun _ _ h => h)
    have h2 := h1.trans (fold_told c (((s.sched b).getD []).take (max - n)) s1)
    rw [List.nil_append] at h2
    split
    · rw [List.append_nil]; exact h2
    · exact h2.trans (idleLoop_told c max bs _ _ _)

theorem number_announce (id b : Nat) (a : AssetId) (p : Payment) : (announce id b a p).number = some id := by cases p <;> rfl
theorem lost_announce (id b : Nat) (a : AssetId) (p : Payment) : (announce id b a p).lost = none := by cases p <;> rfl
theorem isSent_announce (id b : Nat) (a : AssetId) (p : Payment) : (announce id b a p).isSent = false := by cases p <;> rfl
theorem got_announce (x : AssetId) (who : Acct) (id b : Nat) (a : AssetId) (p : Payment) : (announce id b a p).got x who = 0 := by
  cases p <;> rfl

theorem delay_told (c : Cfg) (s : St) (d : Nat) (p : Payment) (a : AssetId) :
    Told c s (delayPayment s d p) (delayEvs s d p a) := by
  unfold delayPayment delayEvs
  split
  · refine ⟨fun _ _ h => h, ⟨[], (List.append_nil _).symm, ?_⟩, ?_, ⟨Nat.le_succ _, ?_⟩, fun b who _ => ?_, fun i q hq => ?_⟩
    · simp only [List.filter_cons, isSent_announce, List.filter_nil]
      exact .nil
    · simp only [List.filterMap_cons, lost_announce, List.filterMap_nil, List.append_nil]
    · simp only [List.filterMap_cons, number_announce, List.filterMap_nil, Nat.add_sub_cancel_left]
      rfl
    · simp only [gotBy, List.map_cons, List.map_nil, List.sum_cons, List.sum_nil, got_announce, Nat.add_zero]
    · simp only [upd_apply] at hq
      split at hq
      · rename_i e
        subst e
        cases hq
        exact Or.inr ⟨_, a, List.mem_singleton.2 rfl⟩
      · exact Or.inl hq
  · exact ⟨fun _ _ h => h, ⟨[], (List.append_nil _).symm, .nil⟩, (List.append_nil _).symm, ⟨Nat.le_refl _, by rw [Nat.sub_self]; rfl⟩,
      fun _ _ _ => rfl, fun _ _ h => Or.inl h⟩

/-- A withdrawal: money is taken, and the events tell the rest. -/
theorem withdraw_told {c : Cfg} {s s' : St} {who : Acct} {a : AssetId} {x : Nat} {ben : Addr} {e : Bool}
    (hm : ∀ t a, s.toAsset t = some a ↔ s.toErc a = some t) (h : withdraw c s who a x ben e = .ok s') :
    ∃ L, burnOrTransfer c s.ledger a who x = .ok L ∧ Told c { s with ledger := L } s' (withdrawalEvs s who a x ben) := by
  simp only [withdraw, bind_ok, ensure_ok, okOr_ok] at h
  obtain ⟨_, _, _, _, t, ht, h⟩ := h
  unfold withdrawalEvs
  rw [ht]
  simp only
  split at h
  · rename_i d hd
    simp only [bind_ok, ensure_ok, pure_ok] at h
    obtain ⟨_, _, L, hL, rfl⟩ := h
    rw [hd]
    exact ⟨L, hL, delay_told c { s with ledger := L } d _ a⟩
  · rename_i hd
    simp only [bind_ok, pure_ok] at h
    obtain ⟨L, hL, rfl⟩ := h
    rw [hd]
    refine ⟨L, hL, fun _ _ h => h, ⟨[_], rfl, .cons ⟨(hm t a).2 ht, rfl, rfl⟩ .nil⟩, (List.append_nil _).symm,
      ⟨Nat.le_refl _, ?_⟩, fun _ _ _ => rfl, fun _ _ h => Or.inl h⟩
    simp only [processWithdrawal, Nat.sub_self]
    rfl

theorem accept_told {c : Cfg} {s s' : St} {d : Dep} {es : List Ev} (h : Told c s s' es) : Told c s (accept s' d) es := by
  have := h.trans (Told.same (c := c) (s := s') (s' := accept s' d) rfl rfl rfl rfl rfl (fun _ _ h => h))
  rwa [List.append_nil] at this

theorem deposit_told {c : Cfg} {s s' : St} {src : Addr} {d : Dep} (h : deposit c s src d = .ok s') :
    Told c s s' (doDepositEvs c s d) := by
  simp only [deposit, bind_ok, ensure_ok] at h
  obtain ⟨_, _, _, _, _, _, r, hr, h⟩ := h
  unfold checkKnown at hr
  unfold doDepositEvs
  cases ha : s.toAsset d.token with
  | none =>
    rw [ha] at hr
    cases hr
    simp only [bind_ok, pure_ok] at h
    obtain ⟨s1, h1, rfl⟩ := h
    exact accept_told (processDeposit_told h1)
  | some a =>
    rw [ha] at hr
    simp only [bind_ok, ensure_ok, pure_ok] at hr
    obtain ⟨_, _, rfl⟩ := hr
    simp only
    cases hd : delayFor s s.depDelay a d.amount with
    | some n =>
      rw [hd] at h
      simp only [pure_ok] at h
      obtain rfl := h
      exact accept_told (delay_told c s n _ a)
    | none =>
      rw [hd] at h
      simp only [bind_ok, pure_ok] at h
      obtain ⟨s1, h1, rfl⟩ := h
      exact accept_told (processDeposit_told h1)

/-- What an operation takes from `who` in asset `a`. -/
def takenBy (a : AssetId) (who : Acct) : Op → Nat
  | .withdraw w b x _ _ => if w = who ∧ b = a then x else 0
  | _ => 0

/-- The events of one operation. Only the balances are taken as they are after what the operation takes or other pallets
move. -/
theorem step_told {c : Cfg} {s s' : St} {op : Op} (hm : ∀ t a, s.toAsset t = some a ↔ s.toErc a = some t)
    (hs : ∀ a t, op ≠ .setMap a t) (h : step c s op = .ok s') :
    ∃ L, Told c { s with ledger := L } s' (evs c s op) ∧ ((∀ L', op ≠ .ledger L') → ∀ a who, (a = c.native → who ≠ c.peg) →
      L.bal a who + takenBy a who op = s.ledger.bal a who) := by
  cases op with
  | withdraw who a x ben e =>
    obtain ⟨L, hL, hT⟩ := withdraw_told hm h
    refine ⟨L, hT, fun _ b y hy => ?_⟩
    obtain ⟨_, h1, h2⟩ := debited hL
    simp only [takenBy]
    by_cases hb : b = a
    · subst hb
      split at h2
      · rename_i hn
        have := h2.2 y
        rw [if_neg (hy hn)] at this
        by_cases e : y = who
        · subst e; simpa using this
        · simpa [e, Ne.symm e] using this
      · have := h2.2 y
        by_cases e : y = who
        · subst e; simpa using this
        · simpa [e, Ne.symm e] using this
    · rw [(h1 b hb).1]
      simp [Ne.symm hb]
  | deposit src d => exact ⟨s.ledger, deposit_told h, fun _ _ _ _ => rfl⟩
  | nextBlock =>
    simp only [step, nextBlock, bind_ok, ensure_ok, pure_ok] at h
    obtain ⟨_, _, rfl⟩ := h
    refine ⟨s.ledger, ?_, fun _ _ _ _ => rfl⟩
    split <;> exact .same rfl rfl rfl rfl rfl (fun _ _ h => h)
  | idle m =>
    simp only [step, idle, bind_ok, ensure_ok, pure_ok] at h
    obtain ⟨_, _, rfl⟩ := h
    refine ⟨s.ledger, ?_, fun _ _ _ _ => rfl⟩
    have h1 := idleLoop_told c m s.ready s 0 0
    have h2 := h1.trans (Told.same (c := c) (s := (idleLoop c m s.ready s 0 0).1)
      (s' := { (idleLoop c m s.ready s 0 0).1 with ready := s.ready.drop (idleLoop c m s.ready s 0 0).2 })
      rfl rfl rfl rfl rfl (fun _ _ h => h))
    rw [List.append_nil] at h2
    exact h2
  | claim b id =>
    simp only [step, claim, bind_ok, ensure_ok, pure_ok] at h
    obtain ⟨_, _, rfl⟩ := h
    refine ⟨s.ledger, ?_, fun _ _ _ _ => rfl⟩
    have h1 : Told c s { s with sched := upd s.sched b (some (((s.sched b).getD []).erase id)) } [] :=
      .same rfl rfl rfl rfl rfl (fun _ _ h => h)
    exact h1.trans (process_told c _ id)
  | setActive d w dd wd =>
    cases h
    exact ⟨s.ledger, .same rfl rfl rfl rfl rfl (fun _ _ h => h), fun _ _ _ _ => rfl⟩
  | setContracts p r =>
    cases h
    exact ⟨s.ledger, .same rfl rfl rfl rfl rfl (fun _ _ h => h), fun _ _ _ _ => rfl⟩
  | setMap a t => exact absurd rfl (hs a t)
  | setDelay a m d =>
    cases h
    exact ⟨s.ledger, .same rfl rfl rfl rfl rfl (fun _ _ h => h), fun _ _ _ _ => rfl⟩
  | takeAsset =>
    simp only [step, bind_ok, pure_ok] at h
    obtain ⟨_, _, rfl⟩ := h
    exact ⟨s.ledger, .same rfl rfl rfl rfl rfl (fun _ _ h => h), fun _ _ _ _ => rfl⟩
  | ledger L =>
    cases h
    exact ⟨L, .same rfl rfl rfl rfl rfl (fun _ _ h => h), fun hL => absurd rfl (hL L)⟩

theorem delayPayment_place {s : St} {d : Nat} {q p : Payment} {a : AssetId} {i b : Nat}
    (h : Announced (delayEvs s d q a) i b p) : i ∈ sch (delayPayment s d q) b := by
  obtain ⟨a', h⟩ := h
  unfold delayEvs at h
  split at h
  · rename_i hU
    rw [List.mem_singleton] at h
    have e : i = s.nextId ∧ b = min (s.now + d) (U32 - 1) := by
      cases p <;> cases q <;> simp only [announce, Ev.depositDelayed.injEq, Ev.withdrawalDelayed.injEq, reduceCtorEq] at h <;>
        exact ⟨h.1, h.2.1⟩
    obtain ⟨rfl, rfl⟩ := e
    unfold sch delayPayment
    rw [if_pos hU]
    simp only [upd_same, Option.getD_some, List.mem_append, List.mem_singleton, or_true]
  · rw [List.mem_singleton] at h
    cases p <;> cases h

theorem Told.silent {c : Cfg} {s s' : St} {es : List Ev} (h : Told c s s' es) (e : s'.nextId = s.nextId) {i b : Nat} {p : Payment}
    (ha : Announced es i b p) : False := by
  obtain ⟨a, ha⟩ := ha
  have h1 := h.next.2
  rw [e, Nat.sub_self] at h1
  have : i ∈ es.filterMap Ev.number := List.mem_filterMap.2 ⟨_, ha, number_announce i b a p⟩
  rw [h1] at this
  cases this

theorem idleLoop_nextId (c : Cfg) (max : Nat) : ∀ (bs : List Nat) (s : St) (n k : Nat),
    (idleLoop c max bs s n k).1.nextId = s.nextId
  | [], s, n, k => rfl
  | b :: bs, s, n, k => by
    simp only [idleLoop]
    split
    · exact (fold_frame c _ _).2.2.2.1
    · rw [idleLoop_nextId c max bs]
      exact (fold_frame c _ _).2.2.2.1

/-- An announced payment is scheduled for the announced block. -/
theorem step_place {c : Cfg} {s s' : St} {op : Op} (hm : ∀ t a, s.toAsset t = some a ↔ s.toErc a = some t)
    (hs : ∀ a t, op ≠ .setMap a t) (h : step c s op = .ok s') {i b : Nat} {p : Payment} (ha : Announced (evs c s op) i b p) :
    i ∈ sch s' b := by
  obtain ⟨L0, hT, _⟩ := step_told hm hs h
  cases op with
  | withdraw who a x ben e =>
    simp only [step, withdraw, bind_ok, ensure_ok, okOr_ok] at h
    obtain ⟨_, _, _, _, t, ht, h⟩ := h
    simp only [evs, withdrawalEvs, ht] at ha
    split at h
    · rename_i d hd
      simp only [bind_ok, ensure_ok, pure_ok] at h
      obtain ⟨_, _, L, hL, rfl⟩ := h
      rw [hd] at ha
      exact delayPayment_place (s := { s with ledger := L }) ha
    · rename_i hd
      rw [hd] at ha
      obtain ⟨a', ha⟩ := ha
      simp only [withdrawEvs, List.mem_singleton] at ha
      cases p <;> cases ha
  | deposit src d =>
    have h0 := h
    simp only [step, deposit, bind_ok, ensure_ok] at h
    obtain ⟨_, _, _, _, _, _, r, hr, h⟩ := h
    unfold checkKnown at hr
    have imm : ∀ s1, processDeposit c s d = .ok s1 → Announced (depositEvs c s d) i b p → False :=
      fun s1 h1 h2 => (processDeposit_told h1).silent (processDeposit_frame h1).2.2.2.1 h2
    simp only [evs, doDepositEvs] at ha
    cases hx : s.toAsset d.token with
    | none =>
      rw [hx] at hr ha
      cases hr
      simp only [bind_ok, pure_ok] at h
      obtain ⟨s1, h1, rfl⟩ := h
      exact (imm s1 h1 ha).elim
    | some a =>
      rw [hx] at hr ha
      simp only [bind_ok, ensure_ok, pure_ok] at hr
      obtain ⟨_, _, rfl⟩ := hr
      simp only at ha
      cases hd : delayFor s s.depDelay a d.amount with
      | some n =>
        rw [hd] at h ha
        simp only [pure_ok] at h
        obtain rfl := h
        exact delayPayment_place ha
      | none =>
        rw [hd] at h ha
        simp only [bind_ok, pure_ok] at h
        obtain ⟨s1, h1, rfl⟩ := h
        exact (imm s1 h1 ha).elim
  | idle m =>
    refine (hT.silent ?_ ha).elim
    simp only [step, idle, bind_ok, ensure_ok, pure_ok] at h
    obtain ⟨_, _, rfl⟩ := h
    simp only
    exact idleLoop_nextId c m _ _ _ _
  | claim b' id => exact (hT.silent (claim_parts h).2.2.2.2.1 ha).elim
  | nextBlock => obtain ⟨_, ha⟩ := ha; cases ha
  | setActive _ _ _ _ => obtain ⟨_, ha⟩ := ha; cases ha
  | setContracts _ _ => obtain ⟨_, ha⟩ := ha; cases ha
  | setMap _ _ => obtain ⟨_, ha⟩ := ha; cases ha
  | setDelay _ _ _ => obtain ⟨_, ha⟩ := ha; cases ha
  | takeAsset => obtain ⟨_, ha⟩ := ha; cases ha
  | ledger _ => obtain ⟨_, ha⟩ := ha; cases ha

/-! ## C244 -/

theorem Env.noMap {c : Cfg} {s : St} {op : Op} (h : Env c s op) : ∀ a t, op ≠ .setMap a t := by
  intro a t e
  subst e
  exact h

theorem failEvs_quiet (s : St) (op : Op) : (failEvs s op).filter Ev.isSent = [] ∧ (failEvs s op).filterMap Ev.lost = [] ∧
    (failEvs s op).filterMap Ev.number = [] ∧ ∀ i b p, ¬ Announced (failEvs s op) i b p := by
  cases op with
  | deposit src d =>
    by_cases hc : src = s.contract ∨ src = s.rootContract
    · have e : failEvs s (.deposit src d) = [.refused src d] := if_pos hc
      rw [e]
      refine ⟨rfl, rfl, rfl, fun i b p ⟨a, h⟩ => ?_⟩
      rw [List.mem_singleton] at h
      cases p <;> cases h
    · have e : failEvs s (.deposit src d) = [] := if_neg hc
      rw [e]
      exact ⟨rfl, rfl, rfl, fun i b p ⟨a, h⟩ => by cases h⟩
  | _ => exact ⟨rfl, rfl, rfl, fun i b p ⟨a, h⟩ => by cases h⟩

/-- What a reader of all events knows, from a state on. -/
theorem story_told {c : Cfg} {g : St} : ∀ (ops : List Op) {s : St}, Reach c (Env c) g s → Along c (Env c) s ops →
    (∀ t a, s.toAsset t = some a → (exec c s ops).toAsset t = some a) ∧
    (∃ ms, (exec c s ops).outbox = s.outbox ++ ms ∧
      List.Forall₂ (Matches (exec c s ops)) ms ((story c s ops).filter Ev.isSent)) ∧
    (exec c s ops).failed.map Dep.ben = s.failed.map Dep.ben ++ (story c s ops).filterMap Ev.lost ∧
    (s.nextId ≤ (exec c s ops).nextId ∧
      (story c s ops).filterMap Ev.number = List.range' s.nextId ((exec c s ops).nextId - s.nextId)) ∧
    (∀ i p, (exec c s ops).payments i = some p →
      (s.payments i = some p ∧ ∀ b, i ∈ sch s b → i ∈ sch (exec c s ops) b) ∨
        ∃ b, Announced (story c s ops) i b p ∧ i ∈ sch (exec c s ops) b)
  | [], s, _, _ => ⟨fun _ _ h => h, ⟨[], (List.append_nil _).symm, .nil⟩, (List.append_nil _).symm,
      ⟨Nat.le_refl _, by rw [show exec c s [] = s from rfl, Nat.sub_self]; rfl⟩, fun i p h => Or.inl ⟨h, fun _ h => h⟩⟩
  | op :: ops, s, hR, hA => by
    cases he : step c s op with
    | error e =>
      have ea : after c s op = s := by unfold after; rw [he]
      have hA' := hA.2
      rw [ea] at hA'
      obtain ⟨h1, ⟨ms, h2, h2'⟩, h3, ⟨h4, h4'⟩, h5⟩ := story_told ops hR hA'
      have ex : exec c s (op :: ops) = exec c s ops := by simp only [exec, ea]
      have et : story c s (op :: ops) = failEvs s op ++ story c s ops := by simp only [story, tell, he, ea]
      obtain ⟨q1, q2, q3, q4⟩ := failEvs_quiet s op
      rw [ex, et]
      refine ⟨h1, ⟨ms, h2, ?_⟩, ?_, ⟨h4, ?_⟩, fun i p hp => ?_⟩
      · rw [List.filter_append, q1, List.nil_append]; exact h2'
      · rw [List.filterMap_append, q2, List.nil_append]; exact h3
      · rw [List.filterMap_append, q3, List.nil_append]; exact h4'
      · exact (h5 i p hp).imp (fun x => x) (fun ⟨b, k1, k2⟩ => ⟨b, k1.right, k2⟩)
    | ok s' =>
      have ea : after c s op = s' := by unfold after; rw [he]
      have hA' := hA.2
      rw [ea] at hA'
      have hR' := Reach.step hR hA.1 he
      obtain ⟨h1, ⟨ms, h2, h2'⟩, h3, ⟨h4, h4'⟩, h5⟩ := story_told ops hR' hA'
      have ex : exec c s (op :: ops) = exec c s' ops := by simp only [exec, ea]
      have et : story c s (op :: ops) = evs c s op ++ story c s' ops := by simp only [story, tell, he, ea]
      obtain ⟨L, hT, _⟩ := step_told hR.inv.map hA.1.noMap he
      rw [ex, et]
      refine ⟨fun t a ht => h1 t a (hT.keep t a ht), ?_, ?_, ⟨Nat.le_trans hT.next.1 h4, ?_⟩, fun i p hp => ?_⟩
      · obtain ⟨ns, k1, k2⟩ := hT.out
        refine ⟨ns ++ ms, by rw [h2, k1, List.append_assoc], ?_⟩
        rw [List.filter_append]
        exact List.rel_append (k2.imp (fun _ _ => Matches.mono h1)) h2'
      · rw [h3, hT.lost, List.filterMap_append, List.append_assoc]
      · rw [List.filterMap_append, hT.next.2, h4']
        have n1 := hT.next.1
        simp only at n1 ⊢
        rw [show (exec c s' ops).nextId - s.nextId = (s'.nextId - s.nextId) + ((exec c s' ops).nextId - s'.nextId) by omega]
        rw [← List.range'_append_1, show s.nextId + (s'.nextId - s.nextId) = s'.nextId by omega]
      · rcases h5 i p hp with ⟨k1, k2⟩ | ⟨b, k1, k2⟩
        · rcases hT.wait i p k1 with k3 | ⟨b, k3⟩
          · by_cases hi : i < s.nextId
            · rcases step_payment hR.qi he hi with ⟨_, _, k4⟩ | ⟨k4, _⟩
              · refine Or.inl ⟨k3, fun b hb => k2 b (k4 b ?_ hb)⟩
                intro h0
                simp only at k3
                rw [h0] at k3
                cases k3
              · rw [k4] at k1; cases k1
            · simp only at k3
              rw [hR.inv.ids i (by omega)] at k3
              cases k3
          · exact Or.inr ⟨b, k3.left, k2 b (step_place hR.inv.map hA.1.noMap he k3)⟩
        · exact Or.inr ⟨b, k1.right, k2⟩

/-- C244: the events of withdrawals tell all messages to Ethereum: which asset, how much, for whom, and in which order. -/
theorem C244_sent {c : Cfg} {g : St} {ops : List Op} (hg : Genesis c g) (hA : Along c (Env c) g ops) :
    List.Forall₂ (Matches (exec c g ops)) (exec c g ops).outbox ((story c g ops).filter Ev.isSent) := by
  obtain ⟨_, ⟨ms, h1, h2⟩, _⟩ := story_told ops (.init hg) hA
  rw [h1, hg.outbox, List.nil_append]
  exact h2

/-- C244: delayed payments are announced under consecutive numbers, each once. -/
theorem C244_numbers {c : Cfg} {g : St} {ops : List Op} (hg : Genesis c g) (hA : Along c (Env c) g ops) :
    (story c g ops).filterMap Ev.number = List.range' g.nextId ((exec c g ops).nextId - g.nextId) :=
  (story_told ops (.init hg) hA).2.2.2.1.2

/-- C244: every payment that waits was announced, with its amount and its people, and waits for the announced block. -/
theorem C244_waiting {c : Cfg} {g : St} {ops : List Op} (hg : Genesis c g) (hA : Along c (Env c) g ops) {i : Nat} {p : Payment}
    (hp : (exec c g ops).payments i = some p) :
    ∃ b, Announced (story c g ops) i b p ∧ ScheduledFor (exec c g ops) i b := by
  rcases (story_told ops (.init hg) hA).2.2.2.2 i p hp with ⟨h, _⟩ | h
  · rw [hg.payments] at h; cases h
  · exact h

/-- C244: the delayed deposits that failed are announced. -/
theorem C244_lost {c : Cfg} {g : St} {ops : List Op} (hg : Genesis c g) (hA : Along c (Env c) g ops) :
    (exec c g ops).failed.map Dep.ben = (story c g ops).filterMap Ev.lost := by
  have := (story_told ops (.init hg) hA).2.2.1
  rw [hg.failed] at this
  exact this

/-- C244: what an account gets through the bridge is what the events of the operation say. Only a withdrawal takes money,
from who makes it. -/
theorem C244_paid {c : Cfg} {g s s' : St} {op : Op} (h : Reach c (Env c) g s) (he : Env c s op) (hs : step c s op = .ok s')
    (hL : ∀ L, op ≠ .ledger L) (a : AssetId) (who : Acct) (hw : a = c.native → who ≠ c.peg) :
    s'.ledger.bal a who + takenBy a who op = s.ledger.bal a who + gotBy a who (tell c s op) := by
  obtain ⟨L, hT, hb⟩ := step_told h.inv.map he.noMap hs
  have h1 := hT.paid a who hw
  have h2 := hb hL a who hw
  have h3 : tell c s op = evs c s op := by unfold tell; rw [hs]
  rw [h3]
  simp only at h1
  omega

/-- C244: every deposit that comes from the bridge's contracts on Ethereum is reported in exactly one event: paid, delayed,
or refused. -/
theorem C244_deposit {c : Cfg} {s : St} {src : Addr} {d : Dep} (h : src = s.contract ∨ src = s.rootContract) :
    ∃ e, tell c s (.deposit src d) = [e] ∧ match step c s (.deposit src d) with
      | .ok s' => (∃ a, e = .deposited a d.amount d.ben) ∨ e = .noIds ∨
          ∃ b a, e = .depositDelayed s.nextId b d.amount d.ben a ∧ s'.payments s.nextId = some (.deposit d)
      | .error _ => e = .refused src d := by
  cases hs : step c s (.deposit src d) with
  | error e =>
    refine ⟨.refused src d, ?_, rfl⟩
    simp only [tell, hs, failEvs, if_pos h]
  | ok s' =>
    have et : tell c s (.deposit src d) = doDepositEvs c s d := by simp only [tell, hs, evs]
    rw [et]
    simp only [step, deposit, bind_ok, ensure_ok] at hs
    obtain ⟨_, _, _, _, _, _, r, hr, hs⟩ := hs
    unfold checkKnown at hr
    unfold doDepositEvs
    have imm : ∀ s1, processDeposit c s d = .ok s1 → ∃ a, depositEvs c s d = [.deposited a d.amount d.ben] := by
      intro s1 h1
      simp only [processDeposit, bind_ok] at h1
      obtain ⟨r, hr, _⟩ := h1
      exact ⟨r.2, by unfold depositEvs; rw [hr]⟩
    cases hx : s.toAsset d.token with
    | none =>
      rw [hx] at hr
      cases hr
      simp only [bind_ok] at hs
      obtain ⟨s1, h1, _⟩ := hs
      obtain ⟨a, ea⟩ := imm s1 h1
      exact ⟨_, ea, Or.inl ⟨a, rfl⟩⟩
    | some a =>
      rw [hx] at hr
      simp only [bind_ok, ensure_ok, pure_ok] at hr
      obtain ⟨_, _, rfl⟩ := hr
      simp only
      cases hd : delayFor s s.depDelay a d.amount with
      | none =>
        rw [hd] at hs
        simp only [bind_ok] at hs
        obtain ⟨s1, h1, _⟩ := hs
        obtain ⟨a, ea⟩ := imm s1 h1
        exact ⟨_, ea, Or.inl ⟨a, rfl⟩⟩
      | some n =>
        rw [hd] at hs
        simp only [pure_ok] at hs
        obtain rfl := hs
        simp only [delayEvs, delayPayment, accept]
        by_cases hU : s.nextId + 1 < U64
        · rw [if_pos hU, if_pos hU]
          exact ⟨_, rfl, Or.inr (Or.inr ⟨_, a, rfl, upd_same ..⟩)⟩
        · rw [if_neg hU]
          exact ⟨_, rfl, Or.inr (Or.inl rfl)⟩

/-- A new token, a delay, a deposit that waits. -/
def waitOps : List Op :=
  [.deposit 10 ⟨600, 70, 5⟩, .setDelay 7268 20 3, .deposit 10 ⟨600, 30, 6⟩, .setDelay 7268 1000 3, .nextBlock, .nextBlock,
   .nextBlock]

/-- C244 is false of delayed payments: events do not say which payment is executed. In one history the deposit of 30 has been
paid and nothing waits, in another it still waits, as a second one was paid at once; the events are the same. -/
theorem C244_refuted : story cfg0 g0 (waitOps ++ [.idle 5]) = story cfg0 g0 (waitOps ++ [.idle 0, .deposit 10 ⟨600, 30, 6⟩]) ∧
    (exec cfg0 g0 (waitOps ++ [.idle 5])).payments 0 = none ∧
    (exec cfg0 g0 (waitOps ++ [.idle 0, .deposit 10 ⟨600, 30, 6⟩])).payments 0 = some (.deposit ⟨600, 30, 6⟩) ∧
    Genesis cfg0 g0 ∧ Along cfg0 (Env cfg0) g0 (waitOps ++ [.idle 5]) ∧
    Along cfg0 (Env cfg0) g0 (waitOps ++ [.idle 0, .deposit 10 ⟨600, 30, 6⟩]) := by
  refine ⟨by decide +kernel, by decide +kernel, by decide +kernel, g0_genesis, ?_, ?_⟩
  · refine ⟨?_, ?_, ?_, ?_, ?_, ?_, ?_, ?_, trivial⟩ <;> decide +kernel
  · refine ⟨?_, ?_, ?_, ?_, ?_, ?_, ?_, ?_, ?_, trivial⟩ <;> decide +kernel

/-- Non-vacuity: `demoOps` satisfies the hypotheses (`g0_genesis`, `demo_env`) and tells of payments, messages and delays. -/
example : story cfg0 g0 demoOps =
    [.deposited 7268 70 5, .withdrew 7268 5 77 5, .withdrawalDelayed 0 4 25 78 7268 5, .depositDelayed 1 4 30 6 7268,
     .withdrew 1 10 79 5, .deposited 1 400 6] ∧
    gotBy 7268 5 (story cfg0 g0 demoOps) = 70 ∧ demo.outbox.map (fun m => m.2.amount) = [5, 10] ∧
    tell cfg0 demo (.deposit 11 ⟨600, 1, 1⟩) = [.refused 11 ⟨600, 1, 1⟩] := by decide +kernel

end Verif.Erc20Peg
