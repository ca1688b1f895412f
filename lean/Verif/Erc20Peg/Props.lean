import Verif.Erc20Peg.Inv
import Verif.Erc20Peg.Sched

/-!
# Properties of the ERC-20 bridge (C36–C38)

`Reach c G g s`: `s` is reached from the genesis state `g` by operations satisfying `G`. `Run c G s ops s'`: the operations
`ops` lead from `s` to `s'`.
-/

namespace Verif.Erc20Peg

/-! ## a concrete history -/

def cfg0 : Cfg := ⟨1, 99, 100000, 100⟩

def L0 : Ledger := (do let L ← Ledger.empty.mint 1 99 1000; L.mint 1 5 50).toOption.getD Ledger.empty

def g0 : St where
  ledger := L0
  nextAsset := 7
  depActive := true
  wdActive := true
  depDelay := true
  wdDelay := true
  toAsset := upd (fun _ => none) 500 (some 1)
  toErc := upd (fun _ => none) 1 (some 500)
  delay := fun _ => none
  payments := fun _ => none
  sched := fun _ => none
  ready := []
  nextId := 0
  contract := 10
  rootContract := 11
  now := 1
  outbox := []
  accepted := []
  failed := []

theorem L0_ok : (do let L ← Ledger.empty.mint 1 99 1000; L.mint 1 5 50 : Except Err Ledger) = .ok L0 :=
  ok_getD (by decide +kernel)

theorem L0_sound : L0.Sound := by
  have h := L0_ok
  rw [bind_ok] at h
  obtain ⟨L, h1, h2⟩ := h
  exact Ledger.mint_sound h2 (Ledger.mint_sound h1 Ledger.sound_empty)

theorem L0_iss {a : AssetId} (h : a ≠ 1) : L0.iss a = 0 := by
  have h0 := L0_ok
  rw [bind_ok] at h0
  obtain ⟨L, h1, h2⟩ := h0
  rw [(Ledger.mint_ok h2).2.2.1 a h, (Ledger.mint_ok h1).2.2.1 a h]
  rfl

theorem newAsset_ne_one {i : Nat} (hi : i ≤ 4194303) (h7 : 7 ≤ i) {a : AssetId} (h : newAsset cfg0 i = some a) : a ≠ 1 := by
  rintro rfl
  unfold newAsset at h
  split at h
  · rename_i n hn
    split at h
    · have e := congrArg Fin.val (Option.some.inj h)
      have e1 : (1 : AssetId).val = 1 := rfl
      simp only [e1] at e
      subst e
      unfold Nft.nextAssetUuid at hn
      split at hn
      · cases hn
      · have e2 := Option.some.inj hn
        have := Nat.left_le_or (n := i <<< 10) (m := cfg0.chainId)
        rw [e2, Nat.shiftLeft_eq] at this
        omega
    · cases h
  · cases h

theorem g0_genesis : Genesis cfg0 g0 := by
  have hL : g0.ledger.Sound := by simp only [g0]; exact L0_sound
  have h1 : g0.nextAsset ≤ 4194303 := by decide +kernel
  have h2 : g0.now + 1 < U32 := by decide +kernel
  refine ⟨hL, ?_, h1, ?_, fun _ => rfl, fun _ => rfl, rfl, rfl, rfl, rfl, h2⟩
  · intro t a
    simp only [g0, upd_apply]
    by_cases h1 : t = 500 <;> by_cases h2 : a = 1
    · simp [h1, h2]
    · simp [h1, h2, Ne.symm h2]
    · simp [h1, h2, Ne.symm h1]
    · simp [h1, h2]
  · intro i a h1 h2 h3
    have hne := newAsset_ne_one h2 h1 h3
    exact ⟨(by simp only [g0]; exact L0_iss hne), (by simp only [g0]; exact upd_ne _ _ hne), hne⟩

/-- A new token is deposited, payments of 20 and more are delayed by three blocks; one withdrawal is sent at once, one is
delayed, and so is another deposit; the native token is withdrawn and deposited. -/
def demoOps : List Op :=
  [.deposit 10 ⟨600, 70, 5⟩, .setDelay 7268 20 3, .withdraw 5 7268 5 77 false, .withdraw 5 7268 25 78 false,
   .deposit 10 ⟨600, 30, 6⟩, .withdraw 5 1 10 79 false, .deposit 11 ⟨500, 400, 6⟩]

def demo : St := exec cfg0 g0 demoOps

theorem demo_env : Along cfg0 (Env cfg0) g0 demoOps := by
  refine ⟨?_, ?_, ?_, ?_, ?_, ?_, ?_, trivial⟩ <;> decide +kernel

theorem demo_live : Along cfg0 (Live cfg0) g0 demoOps := by
  refine ⟨?_, ?_, ?_, ?_, ?_, ?_, ?_, trivial⟩ <;> decide +kernel

theorem demo_reach : Reach cfg0 (Env cfg0) g0 demo := exec_reach demoOps (.init g0_genesis) demo_env

theorem demo_reach_live : Reach cfg0 (Live cfg0) g0 demo := exec_reach demoOps (.init g0_genesis) demo_live

/-! ## C36 -/

/-- C36: for every bridged token other than the native one, the local supply plus the amounts of all waiting payments plus
the withdrawals sent to Ethereum (plus delayed deposits that failed) equals the initial supply plus the accepted deposits.
A deposit can only have failed if the deposits exceed what a balance can hold. -/
theorem C36_backed {c : Cfg} {g s : St} (h : Reach c (Env c) g s) {t : Addr} {a : AssetId} (ha : s.toAsset t = some a)
    (hn : a ≠ c.native) :
    ∃ n, TotalIs (waiting s t) n ∧ s.ledger.iss a + n + sentOf s t + failedOf s t = g.ledger.iss a + depositedOf s t ∧
      (g.ledger.iss a + depositedOf s t < U128 → failedOf s t = 0) :=
  (h.inv.book t a ha).other hn

/-- Non-vacuity: 100 deposited, 5 sent, 25 + 30 waiting, 40 in circulation. -/
example : demo.toAsset 600 = some 7268 ∧ demo.ledger.iss 7268 = 40 ∧ sentOf demo 600 = 5 ∧ depositedOf demo 600 = 100 ∧
    waiting demo 600 0 = 25 ∧ waiting demo 600 1 = 30 ∧ g0.ledger.iss 7268 = 0 := by decide +kernel

/-- C36: what the bridge holds of the native token is what it held at first, plus the withdrawals (waiting or sent), minus
the deposits paid out. -/
theorem C36_native {c : Cfg} {g s : St} (h : Reach c (Env c) g s) {t : Addr} (ha : s.toAsset t = some c.native) :
    ∃ n, TotalIs (waiting s t) n ∧
      s.ledger.bal c.native c.peg + depositedOf s t = g.ledger.bal c.native c.peg + n + sentOf s t + failedOf s t :=
  (h.inv.book t c.native ha).native rfl

/-- Non-vacuity: 10 withdrawn, 400 deposited. -/
example : demo.toAsset 500 = some 1 ∧ demo.ledger.bal 1 99 = 610 ∧ g0.ledger.bal 1 99 = 1000 ∧ sentOf demo 500 = 10 ∧
    depositedOf demo 500 = 400 := by decide +kernel

theorem mintOrTransfer_native {c : Cfg} {L L' : Ledger} {a : AssetId} {ben : Acct} {x : Nat}
    (h : mintOrTransfer c L a ben x = .ok L') : L'.iss c.native = L.iss c.native := by
  unfold mintOrTransfer at h
  split at h
  · rw [(Ledger.transfer_ok h).2.1]
  · rename_i hne
    exact (Ledger.mint_ok h).2.2.1 _ (Ne.symm hne)

theorem burnOrTransfer_native {c : Cfg} {L L' : Ledger} {a : AssetId} {ben : Acct} {x : Nat}
    (h : burnOrTransfer c L a ben x = .ok L') : L'.iss c.native = L.iss c.native := by
  unfold burnOrTransfer at h
  split at h
  · rw [(Ledger.transfer_ok h).2.1]
  · rename_i hne
    exact (Ledger.burn_ok h).2.2.1 _ (Ne.symm hne)

theorem processDeposit_native {c : Cfg} {s s' : St} {d : Dep} (h : processDeposit c s d = .ok s') :
    s'.ledger.iss c.native = s.ledger.iss c.native := by
  simp only [processDeposit, bind_ok, pure_ok] at h
  obtain ⟨r, hr, L, hL, rfl⟩ := h
  have e : r.1.ledger = s.ledger := by
    unfold assetFor at hr
    split at hr
    · cases hr; rfl
    · simp only [bind_ok, pure_ok] at hr
      obtain ⟨a, _, rfl⟩ := hr
      rfl
  have := mintOrTransfer_native hL
  rw [e] at this
  exact this

theorem process_native (c : Cfg) (s : St) (i : Nat) : (process c s i).ledger.iss c.native = s.ledger.iss c.native := by
  unfold process
  split
  · rfl
  · split
    · rename_i h1; exact (processDeposit_native h1).trans rfl
    · rfl
  · split <;> rfl

theorem fold_native (c : Cfg) : ∀ (l : List Nat) (s : St),
    (l.foldl (process c) s).ledger.iss c.native = s.ledger.iss c.native
  | [], _ => rfl
  | i :: l, s => by rw [List.foldl_cons, fold_native c l, process_native]

theorem idleLoop_native (c : Cfg) (m : Nat) : ∀ (bs : List Nat) (s : St) (n k : Nat),
    (idleLoop c m bs s n k).1.ledger.iss c.native = s.ledger.iss c.native
  | [], _, _, _ => rfl
  | b :: bs, s, n, k => by
    unfold idleLoop
    simp only
    split
    · exact fold_native c _ _
    · rw [idleLoop_native c m bs]; exact fold_native c _ _

/-- C36: no operation of the bridge changes the supply of the native token. -/
theorem C36_native_never_minted {c : Cfg} {s s' : St} {op : Op} (h : step c s op = .ok s') (hop : ∀ L, op ≠ .ledger L) :
    s'.ledger.iss c.native = s.ledger.iss c.native := by
  cases op with
  | withdraw w a x b e =>
    rcases withdraw_sched h with ⟨L, d, t, _, _, hL, rfl⟩ | ⟨L, t, _, _, hL, rfl⟩
    · have := burnOrTransfer_native hL
      unfold delayPayment
      split <;> exact this
    · exact burnOrTransfer_native hL
  | deposit src d =>
    rcases deposit_sched h with ⟨n, a, _, _, rfl⟩ | ⟨s1, h1, rfl, _⟩
    · unfold delayPayment accept
      split <;> rfl
    · exact (processDeposit_native h1 :)
  | nextBlock =>
    simp only [step, nextBlock, bind_ok, ensure_ok, pure_ok] at h
    obtain ⟨_, _, rfl⟩ := h
    split <;> rfl
  | idle m =>
    simp only [step, idle, bind_ok, ensure_ok, pure_ok] at h
    obtain ⟨_, _, rfl⟩ := h
    exact idleLoop_native c m _ _ _ _
  | claim b id =>
    simp only [step, claim, bind_ok, ensure_ok, pure_ok] at h
    obtain ⟨_, _, rfl⟩ := h
    exact process_native c _ _
  | setActive => cases h; rfl
  | setContracts => cases h; rfl
  | setMap => cases h; rfl
  | setDelay => cases h; rfl
  | takeAsset =>
    simp only [step, bind_ok, okOr_ok, pure_ok] at h
    obtain ⟨a, ha, rfl⟩ := h
    rfl
  | ledger L => exact absurd rfl (hop L)

/-- Non-vacuity: a native deposit pays its beneficiary out of the bridge's own balance. -/
example : (step cfg0 demo (.deposit 11 ⟨500, 100, 6⟩)).isOk = true ∧
    (after cfg0 demo (.deposit 11 ⟨500, 100, 6⟩)).ledger.bal 1 6 = 500 ∧
    (after cfg0 demo (.deposit 11 ⟨500, 100, 6⟩)).ledger.iss 1 = 1050 := by decide +kernel

/-! ## C37 -/

/-- Payment `i` is scheduled for block `b`. -/
def ScheduledFor (s : St) (i b : Nat) : Prop := i ∈ (s.sched b).getD []

/-- The books `s'` are the books `s` after executing `p` once. A failing deposit pays nobody. -/
def Executed (c : Cfg) (s s' : St) (p : Payment) : Prop :=
  match p with
  | .withdrawal _ w => s'.ledger = s.ledger ∧ s'.failed = s.failed ∧
      ∃ a, s.toAsset w.token = some a ∧ s'.outbox = s.outbox ++ [(if a = c.native then s.rootContract else s.contract, w)]
  | .deposit d => s'.outbox = s.outbox ∧ ∃ a, s.toAsset d.token = some a ∧
      ((mintOrTransfer c s.ledger a d.ben d.amount = .ok s'.ledger ∧ s'.failed = s.failed) ∨
        ((mintOrTransfer c s.ledger a d.ben d.amount).isOk = false ∧ s'.ledger = s.ledger ∧ s'.failed = s.failed ++ [d]))

theorem process_executed {c : Cfg} {s : St} {i : Nat} {p : Payment} (hp : s.payments i = some p)
    (hk : ∃ a, s.toAsset p.token = some a) : Executed c s (process c s i) p := by
  obtain ⟨a, ha⟩ := hk
  unfold process
  cases p with
  | withdrawal src w =>
    simp only [Payment.token] at ha
    simp only [hp, ha]
    exact ⟨rfl, rfl, a, ha, rfl⟩
  | deposit d =>
    simp only [Payment.token] at ha
    simp only [hp]
    have e0 : processDeposit c { s with payments := upd s.payments i none } d =
        (do let L ← mintOrTransfer c s.ledger a d.ben d.amount
            pure { s with
              payments := upd s.payments i none
              ledger := L }) := by
      simp only [processDeposit, assetFor, ha]
      rfl
    rw [e0]
    cases hm : mintOrTransfer c s.ledger a d.ben d.amount with
    | ok L => exact ⟨rfl, a, ha, Or.inl ⟨hm, rfl⟩⟩
    | error e => exact ⟨rfl, a, ha, Or.inr ⟨by rw [hm]; rfl, rfl, rfl⟩⟩

/-- A list of payments is executed one after the other. -/
inductive ExecutedAll (c : Cfg) : St → List Nat → St → Prop
  | nil (s : St) : ExecutedAll c s [] s
  | cons {s s1 s2 : St} {i : Nat} {p : Payment} {l : List Nat} : s.payments i = some p → Executed c s s1 p →
      s1.payments i = none → ExecutedAll c s1 l s2 → ExecutedAll c s (i :: l) s2

theorem process_toAsset {c : Cfg} {s : St} {i : Nat} {t : Addr} {a : AssetId} (h : s.toAsset t = some a) :
    (process c s i).toAsset t = some a := by
  unfold process
  split
  · exact h
  · split
    · rename_i s1 h1
      simp only [processDeposit, bind_ok, pure_ok] at h1
      obtain ⟨r, hr, L, _, rfl⟩ := h1
      unfold assetFor at hr
      split at hr
      · cases hr; exact h
      · rename_i hn
        simp only [bind_ok, pure_ok] at hr
        obtain ⟨a', _, rfl⟩ := hr
        simp only at hn ⊢
        rw [upd_ne]
        · exact h
        · rintro rfl; rw [h] at hn; cases hn
    · exact h
  · split <;> exact h

theorem fold_executed {c : Cfg} : ∀ (l : List Nat) (s : St), l.Nodup → (∀ i ∈ l, ∃ p, s.payments i = some p) →
    (∀ i p, s.payments i = some p → ∃ a, s.toAsset p.token = some a) → ExecutedAll c s l (l.foldl (process c) s)
  | [], s, _, _, _ => .nil s
  | i :: l, s, hnd, hl, hk => by
    obtain ⟨hi, hnd'⟩ := List.nodup_cons.mp hnd
    obtain ⟨p, hp⟩ := hl i List.mem_cons_self
    have hpay := (process_frame c s i).1
    rw [List.foldl_cons]
    refine .cons hp (process_executed hp (hk i p hp)) (by rw [hpay, upd_same]) (fold_executed l _ hnd' ?_ ?_)
    · intro j hj
      have hne : j ≠ i := fun e => hi (e ▸ hj)
      rw [hpay, upd_ne _ _ hne]
      exact hl j (List.mem_cons_of_mem _ hj)
    · intro j q hq
      rw [hpay, upd_apply] at hq
      split at hq
      · cases hq
      · obtain ⟨a, ha⟩ := hk j q hq
        exact ⟨a, process_toAsset ha⟩

/-- C37: once a payment has been executed it never waits again, whatever happens: its id is not reused. -/
theorem C37_once {c : Cfg} {G : St → Op → Prop} {g s s' : St} {ops : List Op} (h : Reach c G g s)
    (hr : Run c G s ops s') {i : Nat} (hi : i < s.nextId) (hp : s.payments i = none) :
    s'.payments i = none ∧ s.nextId ≤ s'.nextId := by
  have hq := h.qi
  clear h
  induction hr with
  | nil => exact ⟨hp, le_refl _⟩
  | cons _ hs _ ih =>
    rcases step_payment hq hs hi with ⟨h1, h2, _⟩ | ⟨h1, h2, _⟩
    · obtain ⟨h3, h4⟩ := ih (by omega) (h1.trans hp) (step_qi hq hs)
      exact ⟨h3, by omega⟩
    · obtain ⟨h3, h4⟩ := ih (by omega) h1 (step_qi hq hs)
      exact ⟨h3, by omega⟩

/-- C37: a waiting payment is scheduled for exactly one block; as long as it waits, neither it nor its block change. -/
theorem C37_schedule_fixed {c : Cfg} {G : St → Op → Prop} {g s s' : St} {ops : List Op} (h : Reach c G g s)
    (hr : Run c G s ops s') {i : Nat} {p : Payment} (hp : s.payments i = some p) (hp' : s'.payments i ≠ none) :
    s'.payments i = some p ∧ ∃ b, ScheduledFor s i b ∧ ScheduledFor s' i b ∧
      ∀ b', ScheduledFor s' i b' → b' = b := by
  have hq := h.qi
  obtain ⟨b, hb⟩ := hq.pend i (by rw [hp]; exact fun h => nomatch h)
  have key : s'.payments i = some p ∧ i ∈ sch s' b := by
    clear h
    induction hr with
    | nil => exact ⟨hp, hb⟩
    | cons hG hs hrest ih =>
      rename_i s0 s1 s2 op ops'
      have hi : i < s0.nextId := by
        by_contra hc
        rw [hq.ids i (by omega)] at hp; cases hp
      rcases step_payment hq hs hi with ⟨h1, _, h3⟩ | ⟨h1, h2, _⟩
      · exact ih (h1.trans hp) hp' (step_qi hq hs) (h3 b (by rw [hp]; exact fun h => nomatch h) hb)
      · exfalso
        have : s2.payments i = none := by
          have hq1 := step_qi hq hs
          have hi1 : i < s1.nextId := by omega
          clear ih hp hq hs h2 hb
          induction hrest with
          | nil => exact h1
          | cons _ hs' _ ih' =>
            rcases step_payment hq1 hs' hi1 with ⟨k1, k2, _⟩ | ⟨k1, k2, _⟩
            · exact ih' hp' (k1.trans h1) (step_qi hq1 hs') (by omega)
            · exact ih' hp' k1 (step_qi hq1 hs') (by omega)
        exact hp' this
  exact ⟨key.1, b, hb, key.2, fun b' hb' => (hr.qi hq).uniq i b' b hb' key.2⟩

/-- C37: a waiting payment is executed only by a root claim or by an idle phase at or after the block it is scheduled for. -/
theorem C37_not_early {c : Cfg} {G : St → Op → Prop} {g s s' : St} {op : Op} (h : Reach c G g s)
    (hs : step c s op = .ok s') {i : Nat} (hp : s.payments i ≠ none) (hp' : s'.payments i = none) :
    ∃ b, ScheduledFor s i b ∧ (op = .claim b i ∨ (∃ m, op = .idle m) ∧ b ≤ s.now) := by
  have hq := h.qi
  have hi : i < s.nextId := by
    by_contra hc
    exact hp (hq.ids i (by omega))
  rcases step_payment hq hs hi with ⟨h1, _, _⟩ | ⟨_, _, ⟨b, ho, hb⟩ | ⟨m, ho, hm⟩⟩
  · exact absurd (h1.symm.trans hp') hp
  · exact ⟨b, hb, Or.inl ho⟩
  · obtain ⟨b, hbr, hb⟩ := mem_queue.mp (List.mem_of_mem_take hm)
    exact ⟨b, hb, Or.inr ⟨⟨m, ho⟩, hq.le b hbr⟩⟩

/-- C37: an idle phase executes a list of distinct waiting payments, each once and at most as many as allowed. -/
theorem C37_idle_executes {c : Cfg} {g s s' : St} {m : Nat} (h : Reach c (Env c) g s) (hs : step c s (.idle m) = .ok s') :
    ∃ ids t, ids.Nodup ∧ ids.length ≤ m ∧ ExecutedAll c s ids t ∧ s'.ledger = t.ledger ∧ s'.outbox = t.outbox ∧
      s'.failed = t.failed ∧ s'.payments = t.payments := by
  have hq := h.qi
  obtain ⟨f, k, rfl, _⟩ := idle_spec hq.nodup hs
  refine ⟨(queue s).take m, _, hq.queue_nodup.sublist (List.take_sublist _ _), List.length_take_le _ _,
    fold_executed _ s (hq.queue_nodup.sublist (List.take_sublist _ _)) (fun i hi => ?_) h.inv.known, rfl, rfl, rfl, rfl⟩
  obtain ⟨b, _, hb⟩ := mem_queue.mp (List.mem_of_mem_take hi)
  exact Option.ne_none_iff_exists'.mp (hq.live b i hb)

/-- C37: a root claim executes the payment it names. -/
theorem C37_claim_executes {c : Cfg} {g s s' : St} {b i : Nat} (h : Reach c (Env c) g s)
    (hs : step c s (.claim b i) = .ok s') : ∃ p, s.payments i = some p ∧ Executed c s s' p ∧ s'.payments i = none := by
  have hq := h.qi
  have hs' := hs
  simp only [step, claim, bind_ok, ensure_ok, pure_ok] at hs
  obtain ⟨_, hm, rfl⟩ := hs
  obtain ⟨p, hp⟩ := Option.ne_none_iff_exists'.mp (hq.live b i hm)
  refine ⟨p, hp, ?_, ?_⟩
  · have := process_executed (c := c)
      (s := { s with sched := upd s.sched b (some (((s.sched b).getD []).erase i)) }) hp (h.inv.known i p hp)
    cases p with
    | withdrawal src w => exact this
    | deposit d => exact this
  · rw [(process_frame c _ i).1, upd_same]

/-- C37: a withdrawal that is delayed takes the money at once and is scheduled `d` blocks later under a new id; nothing is
sent. -/
theorem C37_withdrawal_delayed {c : Cfg} {s s' : St} {who : Acct} {a : AssetId} {x : Nat} {ben : Addr} {e : Bool}
    {m d : Nat} (hs : step c s (.withdraw who a x ben e) = .ok s') (hon : s.wdDelay = true) (hd : s.delay a = some (m, d))
    (hm : m ≤ x) (hU : s.nextId + 1 < U64) :
    ∃ t, s.toErc a = some t ∧ s'.payments s.nextId = some (.withdrawal who ⟨t, x, ben⟩) ∧
      ScheduledFor s' s.nextId (min (s.now + d) (U32 - 1)) ∧ s'.outbox = s.outbox ∧ s'.nextId = s.nextId + 1 ∧
      burnOrTransfer c s.ledger a who x = .ok s'.ledger := by
  have hdf : delayFor s s.wdDelay a x = some d := by simp [delayFor, hon, hd, hm]
  rcases withdraw_sched hs with ⟨L, d', t, ht, hd', hL, rfl⟩ | ⟨L, t, _, hd', _, rfl⟩
  · rw [hdf] at hd'
    cases hd'
    refine ⟨t, ht, ?_, ?_, ?_, ?_, ?_⟩
    · unfold delayPayment; rw [if_pos hU]; exact upd_same _ _ _
    · have := delay_sch (s := { s with ledger := L }) (d := d) (p := .withdrawal who ⟨t, x, ben⟩) hU (min (s.now + d) (U32 - 1))
      unfold ScheduledFor
      change _ ∈ sch _ _
      rw [this, if_pos rfl]
      exact List.mem_append_right _ (List.mem_singleton.mpr rfl)
    · unfold delayPayment; rw [if_pos hU]
    · unfold delayPayment; rw [if_pos hU]
    · unfold delayPayment; rw [if_pos hU]; exact hL
  · rw [hdf] at hd'; cases hd'

/-- Non-vacuity: two payments wait for block 4; an idle phase at block 3 executes none of them, one with room for a single
payment at block 4 executes the first; root can claim the second one early. -/
example : demo.payments 0 = some (.withdrawal 5 ⟨600, 25, 78⟩) ∧ demo.payments 1 = some (.deposit ⟨600, 30, 6⟩) ∧
    demo.sched 4 = some [0, 1] ∧ demo.nextId = 2 ∧
    (exec cfg0 demo [.nextBlock, .nextBlock, .idle 9]).payments 0 = some (.withdrawal 5 ⟨600, 25, 78⟩) ∧
    (let s := exec cfg0 demo [.nextBlock, .nextBlock, .nextBlock, .idle 1]
     s.payments 0 = none ∧ s.payments 1 = some (.deposit ⟨600, 30, 6⟩) ∧ s.sched 4 = some [1] ∧ s.ready = [4] ∧
     s.outbox = demo.outbox ++ [(10, ⟨600, 25, 78⟩)]) ∧
    (let s := after cfg0 demo (.claim 4 1)
     s.payments 1 = none ∧ s.ledger.bal 7268 6 = 30) := by decide +kernel

/-! ## C38 -/

theorem within_run {c : Cfg} {s s' : St} {ops : List Op} (hr : Run c (Live c) s ops s') :
    ∀ {i n : Nat}, QI s → LI s → i < s.nextId → Within s i n → Within s' i (n - (ops.map cap).sum) := by
  induction hr with
  | nil => intro i n _ _ _ hw; simpa using hw
  | cons hG hs _ ih =>
    intro i n hq hl hi hw
    have h1 := step_within hq hl hs hi hw
    have hi' : i < _ := lt_of_lt_of_le hi (by
      rcases step_payment hq hs hi with ⟨_, h2, _⟩ | ⟨_, h2, _⟩ <;> exact h2)
    have := ih (step_qi hq hs) (step_li hq hl hG hs) hi' h1
    rw [List.map_cons, List.sum_cons]
    rwa [Nat.sub_sub] at this

/-- C38, for positive delays and while the list of ready blocks has room: a payment whose block has come is executed as soon
as the idle phases that follow have had room for as many payments as were waiting in ready blocks, whatever else happens in
between. Missing: see `C38_refuted` for a delay of zero; a full list of ready blocks also forgets payments. -/
theorem C38_executed_partial {c : Cfg} {g s s' : St} {ops : List Op} (h : Reach c (Live c) g s)
    (hg : ∀ a m d, g.delay a = some (m, d) → 0 < d) (hr : Run c (Live c) s ops s') {i b : Nat}
    (hb : ScheduledFor s i b) (hdue : b ≤ s.now) (hcap : (queue s).length ≤ (ops.map cap).sum) : s'.payments i = none := by
  have hq := h.qi
  have hl := h.li hg
  have hi : i < s.nextId := by
    by_contra hc
    exact hq.live b i hb (hq.ids i (by omega))
  have hbr : b ∈ s.ready := by
    rcases hl.due b i hb with h1 | h1
    · omega
    · exact h1
  have hw : Within s i (queue s).length := Or.inr (by rw [List.take_length]; exact mem_queue.mpr ⟨b, hbr, hb⟩)
  have := within_run hr hq hl hi hw
  rcases this with h1 | h1
  · exact h1
  · rw [Nat.sub_eq_zero_of_le hcap] at h1
    simp at h1

/-- Non-vacuity: three blocks later two payments are due, and two idle phases execute both. -/
example : (let s := exec cfg0 demo [.nextBlock, .nextBlock, .nextBlock]
    s.now = 4 ∧ s.sched 4 = some [0, 1] ∧ queue s = [0, 1] ∧
    (exec cfg0 s [.idle 1, .nextBlock, .idle 1]).payments 1 = none) := by decide +kernel

example : Along cfg0 (Live cfg0) demo [.nextBlock, .nextBlock, .nextBlock, .idle 1, .nextBlock, .idle 1] := by
  refine ⟨?_, ?_, ?_, ?_, ?_, ?_, trivial⟩ <;> decide +kernel

/-- C38: every payment that waits is scheduled for a block, and that block is in the future or in the list the idle phases
work on. -/
theorem C38_not_forgotten_partial {c : Cfg} {g s : St} (h : Reach c (Live c) g s)
    (hg : ∀ a m d, g.delay a = some (m, d) → 0 < d) {i : Nat} (hp : s.payments i ≠ none) :
    ∃ b, ScheduledFor s i b ∧ (s.now < b ∨ b ∈ s.ready) := by
  obtain ⟨b, hb⟩ := h.qi.pend i hp
  exact ⟨b, hb, (h.li hg).due b i hb⟩

/-! A delay of zero: the payment is scheduled for the current block, which has already been looked at. -/

def zeroOps : List Op := [.deposit 10 ⟨600, 70, 5⟩, .setDelay 7268 20 0, .withdraw 5 7268 25 78 false, .nextBlock]

def zero : St := exec cfg0 g0 zeroOps

theorem zero_reach : Reach cfg0 (fun _ _ => True) g0 zero :=
  exec_reach zeroOps (.init g0_genesis) ⟨trivial, trivial, trivial, trivial, trivial⟩

/-- A payment scheduled for a past block that is not in the ready list. -/
def Stuck (s : St) (i : Nat) : Prop :=
  s.payments i ≠ none ∧ ∃ b, i ∈ sch s b ∧ b < s.now ∧ b ∉ s.ready

theorem stuck_step {c : Cfg} {s s' : St} {op : Op} (hq : QI s) (h : step c s op = .ok s') {i : Nat} (hs : Stuck s i)
    (hop : ∀ b, op ≠ .claim b i) : Stuck s' i := by
  obtain ⟨hp, b, hb, hlt, hnr⟩ := hs
  have hi : i < s.nextId := by
    by_contra hc
    exact hp (hq.ids i (by omega))
  rcases step_payment hq h hi with ⟨h1, _, h3⟩ | ⟨_, _, ⟨b', ho, _⟩ | ⟨m, ho, hm⟩⟩
  · refine ⟨by rw [h1]; exact hp, b, h3 b hp hb, ?_⟩
    have hfr : s'.now = s.now ∧ s'.ready = s.ready → b < s'.now ∧ b ∉ s'.ready := by
      rintro ⟨e1, e2⟩; rw [e1, e2]; exact ⟨hlt, hnr⟩
    cases op with
    | withdraw w a x b e =>
      apply hfr
      rcases withdraw_sched h with ⟨L, d, t, _, _, hL, rfl⟩ | ⟨L, t, _, _, hL, rfl⟩
      · unfold delayPayment
        split <;> exact ⟨rfl, rfl⟩
      · exact ⟨rfl, rfl⟩
    | deposit src d =>
      apply hfr
      rcases deposit_sched h with ⟨n, a, _, _, rfl⟩ | ⟨s1, hd1, rfl, _⟩
      · unfold delayPayment accept
        split <;> exact ⟨rfl, rfl⟩
      · obtain ⟨f1, f2, f3, f4, f5, f6⟩ := processDeposit_frame hd1
        exact ⟨f5, f3⟩
    | nextBlock =>
      simp only [step, nextBlock, bind_ok, ensure_ok, pure_ok] at h
      obtain ⟨_, _, rfl⟩ := h
      split
      · refine ⟨by simp only; omega, ?_⟩
        simp only [List.mem_append, List.mem_singleton, not_or]
        exact ⟨hnr, by omega⟩
      · exact ⟨by simp only; omega, hnr⟩
    | idle m =>
      obtain ⟨f, k, he, _⟩ := idle_spec hq.nodup h
      obtain ⟨_, _, _, fn, fw, fd⟩ := fold_frame c ((queue s).take m) s
      have hw : s'.now = s.now := by rw [he]; exact fw
      have hr : s'.ready = s.ready.drop k := by rw [he]
      rw [hw, hr]
      exact ⟨hlt, fun hc => hnr (List.mem_of_mem_drop hc)⟩
    | claim b' id =>
      obtain ⟨hm, hp', hr, hw, _, _, _⟩ := claim_parts h
      exact hfr ⟨hw, hr⟩
    | setActive => cases h; exact hfr ⟨rfl, rfl⟩
    | setContracts => cases h; exact hfr ⟨rfl, rfl⟩
    | setMap => cases h; exact hfr ⟨rfl, rfl⟩
    | setDelay => cases h; exact hfr ⟨rfl, rfl⟩
    | takeAsset =>
      simp only [step, bind_ok, okOr_ok, pure_ok] at h
      obtain ⟨a, ha, rfl⟩ := h
      exact hfr ⟨rfl, rfl⟩
    | ledger L => cases h; exact hfr ⟨rfl, rfl⟩
  · exact absurd ho (hop b')
  · obtain ⟨b', hbr, hb'⟩ := mem_queue.mp (List.mem_of_mem_take hm)
    exact absurd (hq.uniq i b b' hb hb' ▸ hbr) hnr

/-- C38 is false for a delay of zero: after a reachable state, no history without a root claim ever executes the payment,
however many blocks and idle phases follow. -/
theorem C38_refuted : Reach cfg0 (fun _ _ => True) g0 zero ∧
    zero.payments 0 = some (.withdrawal 5 ⟨600, 25, 78⟩) ∧
    ∀ ops s', (∀ op ∈ ops, ∀ b, op ≠ .claim b 0) → Run cfg0 (fun _ _ => True) zero ops s' →
      s'.payments 0 = some (.withdrawal 5 ⟨600, 25, 78⟩) := by
  have hp : zero.payments 0 = some (.withdrawal 5 ⟨600, 25, 78⟩) := by decide +kernel
  refine ⟨zero_reach, hp, fun ops s' hops hr => ?_⟩
  have hst : Stuck zero 0 := ⟨(by rw [hp]; exact fun h => nomatch h), 1, by decide +kernel, by decide +kernel, by decide +kernel⟩
  have hst' : Stuck s' 0 := by
    have hq := zero_reach.qi
    clear hp
    generalize zero = s0 at hr hst hq
    induction hr with
    | nil => exact hst
    | cons _ hs _ ih =>
      exact ih (fun op ho => hops op (List.mem_cons_of_mem _ ho)) (stuck_step hq hs hst (hops _ List.mem_cons_self)) (step_qi hq hs)
  exact (C37_schedule_fixed zero_reach hr hp hst'.1).1

end Verif.Erc20Peg
