import Verif.Xrpl.Demo

/-!
# Which deposits are accepted, and whether blocks can always be made
-/

namespace Verif.Xrpl

/-- **C213**: a deposit is accepted exactly if an XRPL relayer reports it, its currency (if it is not XRP or an NFT) is mapped to an
asset, its ledger is not older than the submission window, it is not known yet, and the block a challenge period later has room for it. -/
theorem C213_submit (c : Cfg) (s : St) (who : Acct) (i : Nat) (h : Hash) (d : Data) :
    (∃ s', submit c s who i h d = .ok s') ↔
      s.relayer who = true ∧ (∀ amt ben cur, d = .currency amt ben cur → ∃ a, s.toAsset cur = some a) ∧
        s.highest ≤ i % U32 + s.window ∧ s.details h = none ∧ (s.proc (s.now + c.period)).length < c.txLimit := by
  have hk : known s d ↔ ∀ amt ben cur, d = .currency amt ben cur → ∃ a, s.toAsset cur = some a := by
    cases d with
    | payment => simp [known]
    | xls20 => simp [known]
    | currency amt ben cur =>
      constructor
      · rintro h1 _ _ _ e
        cases e
        exact Option.ne_none_iff_exists'.1 h1
      · intro h1
        obtain ⟨a, e⟩ := h1 amt ben cur rfl
        show s.toAsset cur ≠ none
        rw [e]
        simp
  have hw : windowEnd s ≤ i % U32 ↔ s.highest ≤ i % U32 + s.window := by
    unfold windowEnd
    omega
  rw [← hk, ← hw]
  simp only [submit, bind_ok, ensure_ok, pure_ok]
  constructor
  · rintro ⟨_, _, h1, _, h2, _, h3, _, h4, _, h5, _⟩
    exact ⟨h1, h2, h3, h4, h5⟩
  · rintro ⟨h1, h2, h3, h4, h5⟩
    exact ⟨_, (), h1, (), h2, (), h3, (), h4, (), h5, rfl⟩

example : (submit cfg0 g0 8 100 11 (.currency 50 7 70)).isOk = true ∧ errIs (submit cfg0 g0 8 100 11 (.currency 50 7 79)) "AssetNotSupported" = true ∧
    errIs (submit cfg0 dep3 8 80 31 (.payment 1 7)) "OutSideSubmissionWindow" = true := by decide +kernel

/-- **C213**: an accepted deposit changes nothing but the record of pending deposits, where it comes last. -/
theorem C213_pending {c : Cfg} {s s' : St} {who : Acct} {i : Nat} {h : Hash} {d : Data} (hs : submit c s who i h d = .ok s') :
    s' = { s with
      details := upd s.details h (some (i, d))
      proc := upd s.proc (s.now + c.period) (s.proc (s.now + c.period) ++ [h]) } := by
  simp only [submit, bind_ok, ensure_ok, pure_ok] at hs
  obtain ⟨_, _, _, _, _, _, _, _, _, _, rfl⟩ := hs
  rfl

/-- **C213**: the records of a ledger can be dropped by hand exactly if it is older than the submission window and has any; only they
are dropped. -/
theorem C213_prune (s : St) (i : Nat) :
    ((∃ s', prune s i = .ok s') ↔ i + s.window < s.highest ∧ s.settled i ≠ []) ∧
      ∀ s', prune s i = .ok s' → (∀ h, s'.details h = if h ∈ s.settled i then none else s.details h) ∧
        s' = { s with
          details := s'.details
          settled := upd s.settled i [] } := by
  have hw : i < windowEnd s ↔ i + s.window < s.highest := by
    unfold windowEnd
    omega
  rw [← hw]
  simp only [prune, bind_ok, ensure_ok, pure_ok]
  refine ⟨⟨?_, ?_⟩, ?_⟩
  · rintro ⟨_, _, h1, _, h2, _⟩
    exact ⟨h1, h2⟩
  · rintro ⟨h1, h2⟩
    exact ⟨_, (), h1, (), h2, rfl⟩
  · rintro s' ⟨_, _, _, _, rfl⟩
    exact ⟨fun h => rfl, rfl⟩

example : (prune (exec cfg0 dep3 [.submit 8 120 21 (.payment 1 7), .block [] [] yes, .block [] [] yes]) 100).isOk = true ∧
    errIs (prune dep3 100) "CannotPruneActiveLedgerIndex" = true ∧
    errIs (prune (exec cfg0 dep3 [.submit 8 120 21 (.payment 1 7), .block [] [] yes, .block [] [] yes]) 99) "NoTransactionDetails" = true := by
  decide +kernel

/-! ## Limits -/

/-- The limits of the lists. -/
def Within (c : Cfg) (s : St) : Prop :=
  (∀ b, (s.proc b).length ≤ c.txLimit) ∧ ∀ i, (s.settled i).length ≤ c.ledgerLimit

theorem processOne_within {c : Cfg} {x : Hash → Bool} {s s' : St} {h : Hash} (hw : Within c s) (hs : processOne c x s h = .ok s') :
    Within c s' := by
  unfold processOne at hs
  split at hs
  · cases hs; exact hw
  · split at hs
    · cases hs; exact hw
    · split at hs
      · cases hs; exact hw
      · simp only [bind_ok, ensure_ok, pure_ok] at hs
        obtain ⟨_, hlt, rfl⟩ := hs
        refine ⟨hw.1, fun j => ?_⟩
        dsimp only
        rw [upd_apply]
        split
        · rw [List.length_append, List.length_singleton]
          omega
        · exact hw.2 j

theorem processList_within {c : Cfg} {x : Hash → Bool} : ∀ (hs : List Hash) {s s' : St}, Within c s → processList c x hs s = .ok s' →
    Within c s'
  | [], _, _, hw, h => by cases h; exact hw
  | h :: hs, s, s', hw, hp => by
    simp only [processList, bind_ok] at hp
    obtain ⟨s1, h1, h2⟩ := hp
    exact processList_within hs (processOne_within hw h1) h2

/-- Clearing only shortens lists and forgets transactions. -/
theorem clearLoop_less (stop : Nat) : ∀ (ks : List Nat) (s : St),
    (clearLoop stop ks s).proc = s.proc ∧ (∀ i, ((clearLoop stop ks s).settled i).length ≤ (s.settled i).length) ∧
      (∀ h, (clearLoop stop ks s).details h = none ∨ (clearLoop stop ks s).details h = s.details h)
  | [], s => ⟨rfl, fun _ => Nat.le_refl _, fun _ => Or.inr rfl⟩
  | k :: ks, s => by
    have hf : ∀ (l : List Hash) (h : Hash), forget s.details l h = none ∨ forget s.details l h = s.details h := by
      intro l h
      unfold forget
      split
      · exact Or.inl rfl
      · exact Or.inr rfl
    have hu : ∀ (l : List Hash), l.length ≤ (s.settled s.pruned).length → ∀ i, (upd s.settled s.pruned l i).length ≤ (s.settled i).length := by
      intro l hl i
      rw [upd_apply]
      split
      · rename_i e
        rw [e]
        exact hl
      · exact Nat.le_refl _
    unfold clearLoop
    split
    · split
      · exact ⟨rfl, hu _ (by rw [List.length_drop]; omega), hf _⟩
      · obtain ⟨i1, i2, i3⟩ := clearLoop_less stop ks { s with
          details := forget s.details (s.settled s.pruned)
          settled := upd s.settled s.pruned []
          pruned := s.pruned + 1 }
        refine ⟨i1, fun i => Nat.le_trans (i2 i) (hu [] (Nat.zero_le _) i), fun h => ?_⟩
        rcases i3 h with e | e
        · exact Or.inl e
        · rw [e]
          exact hf _ h
    · exact ⟨rfl, fun _ => Nat.le_refl _, fun _ => Or.inr rfl⟩

/-- **C212**: no block has more deposits to process than the limit, and no ledger more settled ones. -/
theorem C212_limits {c : Cfg} {G : St → Op → Prop} {g s : St} (h : Reach c G g s) :
    (∀ b, (s.proc b).length ≤ c.txLimit) ∧ ∀ i, (s.settled i).length ≤ c.ledgerLimit := by
  induction h with
  | init hg => exact ⟨fun b => by rw [hg.proc]; exact Nat.zero_le _, fun i => by rw [hg.settled]; exact Nat.zero_le _⟩
  | @step s s' op _ _ hs ih =>
    cases op with
    | submit w i h d =>
      simp only [Xrpl.step, submit, bind_ok, ensure_ok, pure_ok] at hs
      obtain ⟨_, _, _, _, _, _, _, _, _, hlt, rfl⟩ := hs
      refine ⟨fun b => ?_, ih.2⟩
      dsimp only
      rw [upd_apply]
      split
      · rw [List.length_append, List.length_singleton]
        omega
      · exact ih.1 b
    | challenge _ _ => cases hs; exact ih
    | withdraw _ _ _ _ _ =>
      obtain ⟨_, _, _, _, _, _, _, _, rfl⟩ := withdraw_frame hs
      exact ih
    | block ks ps x =>
      obtain ⟨_, p, o, l, sc, q, h, _⟩ := block_ok hs
      unfold processTx at h
      obtain ⟨i1, i2, _⟩ := clearLoop_less (min (windowEnd s) ((s.pruned + c.maxPruned) % U32)) ps
        { s with payments := p, outbox := o, lost := l, sched := sc, ptr := q }
      refine processList_within _ ⟨fun b => ?_, fun i => ?_⟩ h
      · dsimp only
        rw [upd_apply]
        split
        · exact Nat.zero_le _
        · have e := congrFun i1 b
          exact (congrArg List.length e).le.trans (ih.1 b)
      · exact Nat.le_trans (i2 i) (ih.2 i)
    | nftTx _ =>
      obtain ⟨_, _, _, _, rfl⟩ := nftTx_frame hs
      exact ih
    | signers =>
      cases hs
      obtain ⟨_, _, _, _, e⟩ := signers_frame s
      rw [e]
      exact ih
    | nextAlloc _ _ _ _ =>
      simp only [Xrpl.step, nextAlloc, bind_ok, ensure_ok, pure_ok] at hs
      obtain ⟨_, _, _, _, _, _, rfl⟩ := hs
      exact ih
    | curAlloc _ _ _ _ =>
      simp only [Xrpl.step, curAlloc, bind_ok, ensure_ok, pure_ok] at hs
      obtain ⟨_, _, _, _, rfl⟩ := hs
      exact ih
    | prune i =>
      simp only [Xrpl.step, prune, bind_ok, ensure_ok, pure_ok] at hs
      obtain ⟨_, _, _, _, rfl⟩ := hs
      refine ⟨ih.1, fun j => ?_⟩
      dsimp only
      rw [upd_apply]
      split
      · exact Nat.zero_le _
      · exact ih.2 j
    | setRelayer _ _ => cases hs; exact ih
    | setDelay _ _ => cases hs; exact ih
    | setFee _ _ =>
      simp only [Xrpl.step, bind_ok, ensure_ok, pure_ok] at hs
      obtain ⟨_, _, rfl⟩ := hs
      exact ih
    | setDoor _ _ => cases hs; exact ih
    | setMap _ _ => cases hs; exact ih
    | removeMap _ =>
      simp only [Xrpl.step, bind_ok, okOr_ok, pure_ok] at hs
      obtain ⟨_, _, rfl⟩ := hs
      exact ih
    | ledger _ => cases hs; exact ih
    | setDec _ _ => cases hs; exact ih

/-- Paying delayed withdrawals only shortens the lists. -/
theorem delayLoop_less (c : Cfg) (addr : Addr) (limit : Nat) : ∀ (ks : List Nat) (s : St) (b : Nat),
    ((delayLoop c addr limit ks s).sched b).length ≤ (s.sched b).length
  | [], _, _ => Nat.le_refl _
  | k :: ks, s, b => by
    have hu : ∀ (l : List Nat), l.length ≤ (s.sched s.ptr).length → (upd s.sched s.ptr l b).length ≤ (s.sched b).length := by
      intro l hl
      rw [upd_apply]
      split
      · rename_i e
        rw [e]
        exact hl
      · exact Nat.le_refl _
    unfold delayLoop
    split
    · split
      · obtain ⟨p, o, l, e⟩ := payAll_frame c addr ((s.sched s.ptr).take k)
          { s with sched := upd s.sched s.ptr ((s.sched s.ptr).drop k) }
        rw [e]
        exact hu _ (by rw [List.length_drop]; omega)
      · obtain ⟨p, o, l, e⟩ := payAll_frame c addr (s.sched s.ptr)
          { s with
            sched := upd s.sched s.ptr []
            ptr := s.ptr + 1 }
        rw [e]
        exact Nat.le_trans (delayLoop_less c addr limit ks _ b) (hu [] (Nat.zero_le _))
    · exact Nat.le_refl _

/-- **C43**: no block has more delayed withdrawals to pay than the limit, and their ids are 64-bit numbers. -/
theorem C43_capacity {c : Cfg} {G : St → Op → Prop} {g s : St} (h : Reach c G g s) (hg : g.nextId < U64) :
    (∀ b, (s.sched b).length ≤ c.maxDelayed) ∧ s.nextId < U64 := by
  induction h with
  | init hg' => exact ⟨fun b => by rw [hg'.sched]; exact Nat.zero_le _, hg⟩
  | @step s s' op _ _ hs ih =>
    cases op with
    | submit w i h d =>
      rw [C213_pending hs]
      exact ih
    | challenge _ _ => cases hs; exact ih
    | withdraw w a x d t =>
      simp only [Xrpl.step, withdraw, bind_ok, ensure_ok, okOr_ok] at hs
      obtain ⟨_, _, _, _, y, _, addr, _, r, _, t, ht, h⟩ := hs
      obtain ⟨p, n, q, e⟩ := ticket_frame ht
      split at h
      · simp only [delayPayment, bind_ok, ensure_ok, pure_ok] at h
        obtain ⟨_, h1, _, h2, rfl⟩ := h
        rw [e] at h1 h2 ⊢
        dsimp only at h1 h2 ⊢
        refine ⟨fun b => ?_, h1⟩
        rw [upd_apply]
        split
        · rw [List.length_append, List.length_singleton]
          omega
        · exact ih.1 b
      · obtain ⟨o, rfl⟩ := send_frame h
        rw [e]
        exact ih
    | block ks ps x =>
      simp only [Xrpl.step, block, bind_ok, ensure_ok] at hs
      obtain ⟨_, _, h⟩ := hs
      unfold processTx at h
      obtain ⟨L, st, hi, cr, rfl⟩ := processList_frame _ h
      obtain ⟨d, st', p, e⟩ := clearLoop_frame (min (windowEnd (delayed c ks s)) (((delayed c ks s).pruned + c.maxPruned) % U32)) ps
        (delayed c ks s)
      have e' : clear c ps (delayed c ks s) = _ := e
      rw [e']
      have hs : ∀ b, ((delayed c ks s).sched b).length ≤ (s.sched b).length := by
        intro b
        unfold delayed
        split
        · exact Nat.le_refl _
        · exact delayLoop_less c _ _ ks s b
      obtain ⟨p, o, l, sc, q, ed⟩ := delayed_frame c ks s
      refine ⟨fun b => Nat.le_trans (hs b) (ih.1 b), ?_⟩
      dsimp only
      rw [ed]
      exact ih.2
    | nftTx _ =>
      obtain ⟨_, _, _, _, rfl⟩ := nftTx_frame hs
      exact ih
    | signers =>
      cases hs
      obtain ⟨_, _, _, _, e⟩ := signers_frame s
      rw [e]
      exact ih
    | nextAlloc _ _ _ _ =>
      simp only [Xrpl.step, nextAlloc, bind_ok, ensure_ok, pure_ok] at hs
      obtain ⟨_, _, _, _, _, _, rfl⟩ := hs
      exact ih
    | curAlloc _ _ _ _ =>
      simp only [Xrpl.step, curAlloc, bind_ok, ensure_ok, pure_ok] at hs
      obtain ⟨_, _, _, _, rfl⟩ := hs
      exact ih
    | prune i =>
      simp only [Xrpl.step, prune, bind_ok, ensure_ok, pure_ok] at hs
      obtain ⟨_, _, _, _, rfl⟩ := hs
      exact ih
    | setRelayer _ _ => cases hs; exact ih
    | setDelay _ _ => cases hs; exact ih
    | setFee _ _ =>
      simp only [Xrpl.step, bind_ok, ensure_ok, pure_ok] at hs
      obtain ⟨_, _, rfl⟩ := hs
      exact ih
    | setDoor _ _ => cases hs; exact ih
    | setMap _ _ => cases hs; exact ih
    | removeMap _ =>
      simp only [Xrpl.step, bind_ok, okOr_ok, pure_ok] at hs
      obtain ⟨_, _, rfl⟩ := hs
      exact ih
    | ledger _ => cases hs; exact ih
    | setDec _ _ => cases hs; exact ih

example : g0.nextId < U64 ∧ Reach cfg0 Any g0 dep3 := ⟨by decide, exec_reach [.block [5] [5] yes] dep_reach (along_any _)⟩

/-! ## Blocks can be made while ledgers have room -/

/-- The ledger (32 bits) of a known transaction. -/
def ledgerOf (s : St) (h : Hash) : Option Nat := (s.details h).map (fun p => p.1 % U32)

/-- How many of these transactions are of a ledger. -/
def ofLedger (s : St) (i : Nat) (hs : List Hash) : Nat := (hs.filter (fun h => decide (ledgerOf s h = some i))).length

theorem processList_total {c : Cfg} {x : Hash → Bool} : ∀ (hs : List Hash) {s : St},
    (∀ i, (s.settled i).length + ofLedger s i hs ≤ c.ledgerLimit) → ∃ s', processList c x hs s = .ok s'
  | [], s, _ => ⟨s, rfl⟩
  | h :: hs, s, hroom => by
    have hmono : ∀ i, ofLedger s i hs ≤ ofLedger s i (h :: hs) := by
      intro i
      unfold ofLedger
      rw [List.filter_cons]
      split
      · exact Nat.le_succ _
      · exact Nat.le_refl _
    have h1 : ∃ s1, processOne c x s h = .ok s1 ∧ s1.details = s.details ∧
        ∀ i, (s1.settled i).length + ofLedger s i hs ≤ (s.settled i).length + ofLedger s i (h :: hs) := by
      have same : ∀ i, (s.settled i).length + ofLedger s i hs ≤ (s.settled i).length + ofLedger s i (h :: hs) :=
        fun i => Nat.add_le_add_left (hmono i) _
      unfold processOne
      split
      · exact ⟨s, rfl, rfl, same⟩
      · split
        · exact ⟨s, rfl, rfl, same⟩
        · rename_i i d hd
          split
          · exact ⟨s, rfl, rfl, same⟩
          · rename_i L hL
            have hl : ledgerOf s h = some (i % U32) := by unfold ledgerOf; rw [hd]; rfl
            have hc : ofLedger s (i % U32) (h :: hs) = ofLedger s (i % U32) hs + 1 := by
              unfold ofLedger
              rw [List.filter_cons, if_pos (by simpa using hl), List.length_cons]
            have := hroom (i % U32)
            refine ⟨{ s with
              ledger := L
              settled := upd s.settled (i % U32) (s.settled (i % U32) ++ [h])
              highest := max s.highest (i % U32)
              credited := s.credited ++ [(h, i % U32, d)] },
              by simp only [bind_ok, ensure_ok, pure_ok]; exact ⟨(), by omega, trivial⟩, rfl, fun j => ?_⟩
            dsimp only
            rw [upd_apply]
            split
            · rename_i e
              rw [e, hc, List.length_append, List.length_singleton]
              omega
            · exact same j
    obtain ⟨s1, e1, e2, e3⟩ := h1
    have hsame : ∀ i, ofLedger s1 i hs = ofLedger s i hs := by
      intro i
      unfold ofLedger ledgerOf
      rw [e2]
    obtain ⟨s', e⟩ := processList_total hs (s := s1) (fun i => by rw [hsame]; exact Nat.le_trans (e3 i) (hroom i))
    exact ⟨s', by simp only [processList, bind_ok]; exact ⟨s1, e1, e⟩⟩

/-- **C212** (partial): the next block can be made, whatever the weights allow, as long as no XRPL ledger has more deposits, settled and
due, than the limit. Missing: ledgers with more. -/
theorem C212_block_partial {c : Cfg} {s : St} (hb : s.now + 1 + c.period < U32) (ks ps : List Nat) (x : Hash → Bool)
    (hroom : ∀ i, (s.settled i).length + ofLedger s i (s.proc (s.now + 1)) ≤ c.ledgerLimit) :
    ∃ s', block c s ks ps x = .ok s' := by
  obtain ⟨p, o, l, sc, q, e⟩ := delayed_frame c ks s
  obtain ⟨i1, i2, i3⟩ := clearLoop_less (min (windowEnd s) ((s.pruned + c.maxPruned) % U32)) ps
    { s with payments := p, outbox := o, lost := l, sched := sc, ptr := q }
  simp only [block, bind_ok, ensure_ok]
  rw [e]
  have hp : (clear c ps { s with payments := p, outbox := o, lost := l, sched := sc, ptr := q }).proc = s.proc := i1
  have hd : ∀ h, (clear c ps { s with payments := p, outbox := o, lost := l, sched := sc, ptr := q }).details h = none ∨
      (clear c ps { s with payments := p, outbox := o, lost := l, sched := sc, ptr := q }).details h = s.details h := i3
  have hs : ∀ i, ((clear c ps { s with payments := p, outbox := o, lost := l, sched := sc, ptr := q }).settled i).length ≤
      (s.settled i).length := i2
  generalize clear c ps { s with payments := p, outbox := o, lost := l, sched := sc, ptr := q } = t at hp hd hs
  have key : ∃ s', processTx c x { t with now := s.now + 1 } = .ok s' := by
    unfold processTx
    dsimp only
    rw [hp]
    refine processList_total _ (fun i => Nat.le_trans (Nat.add_le_add (hs i) ?_) (hroom i))
    unfold ofLedger
    have hf : ∀ h, decide (ledgerOf { t with proc := upd s.proc (s.now + 1) [], now := s.now + 1 } h = some i) = true →
        decide (ledgerOf s h = some i) = true := by
      intro h hh
      simp only [decide_eq_true_eq] at hh ⊢
      unfold ledgerOf at hh ⊢
      dsimp only at hh
      rcases hd h with e | e
      · rw [e] at hh
        exact absurd hh (by simp)
      · rw [e] at hh
        exact hh
    rw [← List.countP_eq_length_filter, ← List.countP_eq_length_filter]
    exact List.countP_mono_left (fun h _ hh => hf h hh)
  obtain ⟨s', e'⟩ := key
  exact ⟨s', (), hb, e'⟩

example : dep.now + 1 + cfg0.period < U32 ∧ ofLedger dep 100 (dep.proc (dep.now + 1)) = 2 ∧ dep.settled 100 = [] ∧
    (block cfg0 dep [5] [5] yes).isOk = true := by decide +kernel

/-! ## A full ledger halts the chain -/

/-- The limits of a block and of a ledger are both `n` (in the runtime, one million: /repo/runtime/src/lib.rs:629-631). -/
def cfgN (n : Nat) : Cfg := { cfg0 with
  period := 1
  txLimit := n
  ledgerLimit := n }

attribute [local irreducible] L0

/-- The chain has settled deposits up to ledger 100 before. -/
def g1 : St := { g0 with highest := 100 }

theorem g1_genesis : Genesis g1 :=
  ⟨by show L0.Sound; exact L0_sound, fun _ => rfl, fun _ => rfl, fun _ => rfl, fun _ => rfl, fun _ => rfl, by show 1 ≤ 1; decide, by show 1 < U32; decide, fun _ => rfl,
    rfl, rfl, rfl⟩

/-- After `k` deposits of one drop, all of XRPL ledger 100, each in its own block. -/
def filled (k : Nat) : St := { g1 with
  now := 1 + k
  details := fun h => if h < k then some (100, .payment 1 7) else none
  settled := upd (fun _ => []) 100 (List.range k)
  credited := (List.range k).map (fun h => (h, 100, .payment 1 7))
  ledger := {
    bal := upd L0.bal 2 (upd (L0.bal 2) 7 (L0.bal 2 7 + k))
    iss := upd L0.iss 2 (L0.iss 2 + k) } }

/-- The next deposit of that ledger is submitted. -/
def waiting (k : Nat) : St := { filled k with
  details := upd (filled k).details k (some (100, .payment 1 7))
  proc := upd (fun _ => []) (2 + k) [k] }

theorem filled_zero : filled 0 = g1 := by
  have e1 : (fun h : Hash => if h < 0 then some ((100 : Nat), Data.payment 1 7) else none) = fun _ => none := by
    funext h
    exact if_neg (Nat.not_lt_zero _)
  have e2 : upd (fun _ : Nat => ([] : List Hash)) 100 (List.range 0) = fun _ => [] := by
    funext i
    rw [upd_apply]
    split <;> rfl
  have e3 : upd L0.bal 2 (upd (L0.bal 2) 7 (L0.bal 2 7 + 0)) = L0.bal := by
    funext a w
    rw [upd_apply]
    split
    · rename_i e
      rw [e, upd_apply]
      split
      · rename_i e'
        rw [e', Nat.add_zero]
      · rfl
    · rfl
  have e4 : upd L0.iss 2 (L0.iss 2 + 0) = L0.iss := by
    funext a
    rw [upd_apply]
    split
    · rename_i e
      rw [e, Nat.add_zero]
    · rfl
  simp only [filled, e1, e2, e3, e4]
  rfl

theorem filled_submit {n k : Nat} (hn : 0 < n) : submit (cfgN n) (filled k) 8 100 k (.payment 1 7) = .ok (waiting k) := by
  simp only [submit, bind_ok, ensure_ok, pure_ok]
  refine ⟨(), (by decide : decide ((8 : Nat) = 8) = true), (), trivial, (), ?_, (), ?_, (), ?_, ?_⟩
  · show 100 - 10 ≤ 100 % U32
    decide
  · show (if k < k then _ else _) = none
    exact if_neg (Nat.lt_irrefl k)
  · exact hn
  · have : (filled k).now + (cfgN n).period = 2 + k := by
      show 1 + k + 1 = 2 + k
      omega
    rw [this]
    rfl

/-- The idle phase leaves ledger 100 alone. -/
theorem clearLoop_100 : ∀ (ks : List Nat) (stop : Nat) (s : St), stop ≤ 90 → (∀ i, i < 90 → s.settled i = []) →
    (clearLoop stop ks s).settled = s.settled ∧ (clearLoop stop ks s).details = s.details
  | [], _, _, _, _ => ⟨rfl, rfl⟩
  | k :: ks, stop, s, hs, he => by
    unfold clearLoop
    split
    · rename_i h
      have e := he s.pruned (by omega)
      rw [e]
      have e1 : upd s.settled s.pruned [] = s.settled := by
        funext i
        rw [upd_apply]
        split
        · rename_i e'
          rw [e', e]
        · rfl
      have e2 : forget s.details [] = s.details := by
        funext h
        unfold forget
        exact if_neg (List.not_mem_nil)
      rw [if_neg (by simp), e1, e2]
      exact clearLoop_100 ks stop _ hs he
    · exact ⟨rfl, rfl⟩

theorem filled_mint {k : Nat} (hk : k + 4 < U32) : Ledger.mint (filled k).ledger 2 7 1 = .ok (filled (k + 1)).ledger := by
  have hi : (filled k).ledger.iss 2 = 18446744073709552716 + k := by
    show upd L0.iss 2 (L0.iss 2 + k) 2 = _
    rw [upd_same, (by decide +kernel : L0.iss 2 = 18446744073709552716)]
  have hb : (filled k).ledger.bal 2 = upd (L0.bal 2) 7 (L0.bal 2 7 + k) := by
    show upd L0.bal 2 (upd (L0.bal 2) 7 (L0.bal 2 7 + k)) 2 = _
    exact upd_same _ _ _
  have hU : 18446744073709552716 + k + 1 < U128 := by
    have : U32 + 18446744073709552716 < U128 := by decide
    omega
  unfold Ledger.mint
  rw [hi, if_pos hU, hb, upd_same]
  congr 1
  show Ledger.mk _ _ = Ledger.mk _ _
  congr 1
  · funext a
    show upd (upd L0.bal 2 _) 2 _ a = upd L0.bal 2 _ a
    rw [upd_apply, upd_apply, upd_apply]
    split
    · funext w
      rw [upd_apply, upd_apply, upd_apply]
      split
      · omega
      · rfl
    · rfl
  · funext a
    show upd (upd L0.iss 2 _) 2 _ a = upd L0.iss 2 _ a
    rw [upd_apply, upd_apply, upd_apply]
    split
    · rw [(by decide +kernel : L0.iss 2 = 18446744073709552716)]
      omega
    · rfl

theorem waiting_block {n k : Nat} (hk : k < n) (hn : n + 4 < U32) : block (cfgN n) (waiting k) [] [] yes = .ok (filled (k + 1)) := by
  have hp : (waiting k).proc (2 + k) = [k] := by
    show upd (fun _ => []) (2 + k) [k] (2 + k) = [k]
    exact upd_same _ _ _
  simp only [block, bind_ok, ensure_ok]
  refine ⟨(), ?_, ?_⟩
  · show 1 + k + 1 + 1 < U32
    omega
  · have hnow : (waiting k).now + 1 = 2 + k := by
      show 1 + k + 1 = _
      omega
    rw [hnow]
    have hclear : clear (cfgN n) [] (delayed (cfgN n) [] (waiting k)) = waiting k := rfl
    rw [hclear]
    unfold processTx
    dsimp only
    rw [hp]
    simp only [processList, bind_ok]
    refine ⟨filled (k + 1), ?_, rfl⟩
    unfold processOne
    rw [if_neg (by show ¬ (false = true); simp)]
    have hd : (waiting k).details k = some (100, .payment 1 7) := upd_same _ _ _
    dsimp only
    rw [hd]
    dsimp only
    have hc : credit (cfgN n) { waiting k with
        proc := upd (waiting k).proc (2 + k) []
        now := 2 + k } (yes k) (.payment 1 7) = .ok (filled (k + 1)).ledger := by
      show creditAsset (cfgN n) (filled k).ledger 2 7 1 = _
      unfold creditAsset
      rw [if_neg (by show ¬ ((2 : AssetId) = 1); decide)]
      exact filled_mint (by omega)
    rw [hc]
    have hs : (waiting k).settled (100 % U32) = List.range k := by
      show upd (fun _ => []) 100 (List.range k) 100 = _
      exact upd_same _ _ _
    simp only [bind_ok, ensure_ok, pure_ok]
    refine ⟨(), by rw [hs, List.length_range]; exact hk, ?_⟩
    have e1 : upd (waiting k).proc (2 + k) [] = fun _ => [] := by
      funext b
      show upd (upd (fun _ => []) (2 + k) [k]) (2 + k) [] b = []
      rw [upd_apply, upd_apply]
      split <;> rfl
    have e2 : upd (waiting k).settled (100 % U32) ((waiting k).settled (100 % U32) ++ [k]) =
        upd (fun _ => []) 100 (List.range (k + 1)) := by
      rw [hs, ← List.range_succ]
      funext i
      show upd (upd (fun _ => []) 100 _) 100 _ i = upd (fun _ => []) 100 _ i
      rw [upd_apply, upd_apply, upd_apply]
      split <;> rfl
    have e3 : (waiting k).details = fun h => if h < k + 1 then some (100, .payment 1 7) else none := by
      funext h
      show upd (fun h => if h < k then some ((100 : Nat), Data.payment 1 7) else none) k _ h = _
      rw [upd_apply]
      split
      · rename_i e
        rw [e, if_pos (Nat.lt_succ_self k)]
      · split
        · rw [if_pos (by omega)]
        · rw [if_neg (by omega)]
    have e4 : max (waiting k).highest (100 % U32) = 100 := by
      show max 100 (100 % U32) = 100
      decide
    have e5 : (waiting k).credited ++ [(k, 100 % U32, Data.payment 1 7)] =
        (List.range (k + 1)).map (fun h => (h, 100, Data.payment 1 7)) := by
      rw [List.range_succ, List.map_append]
      rfl
    rw [e1, e2, e3, e4, e5]
    have e6 : 1 + (k + 1) = 2 + k := by omega
    unfold filled
    rw [e6]
    rfl

theorem filled_reach {n : Nat} (hn : n + 4 < U32) : ∀ k, k ≤ n → Reach (cfgN n) Any g1 (filled k)
  | 0, _ => by
    rw [filled_zero]
    exact .init g1_genesis
  | k + 1, hk =>
    .step (op := .block [] [] yes) (.step (op := .submit 8 100 k (.payment 1 7)) (filled_reach hn k (by omega)) trivial
      (filled_submit (by omega))) trivial (waiting_block (by omega) hn)

/-- **C212** (refuted): the chain halts. Whatever the limits (equal, as in the runtime), once that many deposits of one XRPL ledger were
credited, in different blocks, one more that is accepted makes every next block panic before anything is done, whatever the weights and
deposits of XLS-20 tokens. -/
theorem C212_halt_refuted (n : Nat) (h0 : 0 < n) (hn : n + 4 < U32) :
    Reach (cfgN n) Any g1 (waiting n) ∧ ∀ ks ps x, errIs (block (cfgN n) (waiting n) ks ps x) "panic" = true := by
  refine ⟨.step (op := .submit 8 100 n (.payment 1 7)) (filled_reach hn n (Nat.le_refl _)) trivial (filled_submit h0), fun ks ps x => ?_⟩
  obtain ⟨p, o, l, sc, q, e⟩ := delayed_frame (cfgN n) ks (waiting n)
  obtain ⟨i1, _, _⟩ := clearLoop_less (min (windowEnd (waiting n)) (((waiting n).pruned + (cfgN n).maxPruned) % U32)) ps
    { waiting n with payments := p, outbox := o, lost := l, sched := sc, ptr := q }
  obtain ⟨j1, j2⟩ := clearLoop_100 ps (min (windowEnd (waiting n)) (((waiting n).pruned + (cfgN n).maxPruned) % U32))
    { waiting n with payments := p, outbox := o, lost := l, sched := sc, ptr := q } (Nat.min_le_left _ _)
    (fun i hi => by show upd (fun _ => []) 100 (List.range n) i = []; exact upd_ne _ _ (by omega))
  obtain ⟨d, st, pr, ec⟩ := clearLoop_frame (min (windowEnd (waiting n)) (((waiting n).pruned + (cfgN n).maxPruned) % U32)) ps
    { waiting n with payments := p, outbox := o, lost := l, sched := sc, ptr := q }
  rw [ec] at j1 j2
  dsimp only at j1 j2
  subst j1 j2
  have hclear : clear (cfgN n) ps (delayed (cfgN n) ks (waiting n)) =
      { waiting n with payments := p, outbox := o, lost := l, sched := sc, ptr := q, pruned := pr } := by
    rw [e]
    exact ec
  have hb : (waiting n).now + 1 + (cfgN n).period < U32 := by
    show 1 + n + 1 + 1 < U32
    omega
  have hnow : (waiting n).now + 1 = 2 + n := by
    show 1 + n + 1 = _
    omega
  have hp : (waiting n).proc (2 + n) = [n] := by
    show upd (fun _ => []) (2 + n) [n] (2 + n) = [n]
    exact upd_same _ _ _
  have hd : (waiting n).details n = some (100, .payment 1 7) := by
    show upd (filled n).details n (some (100, Data.payment 1 7)) n = _
    exact upd_same _ _ _
  have hs : (waiting n).settled (100 % U32) = List.range n := by
    show upd (fun _ => []) 100 (List.range n) 100 = _
    exact upd_same _ _ _
  have hc : ∀ (t : St), t.ledger = (filled n).ledger → credit (cfgN n) t (x n) (.payment 1 7) = .ok (filled (n + 1)).ledger := by
    intro t ht
    show creditAsset (cfgN n) t.ledger 2 7 1 = _
    unfold creditAsset
    rw [if_neg (by show ¬ ((2 : AssetId) = 1); decide), ht]
    exact filled_mint (by omega)
  unfold block ensure
  rw [if_pos hb, hclear, hnow]
  show errIs (processTx _ _ _) "panic" = true
  unfold processTx
  dsimp only
  rw [hp]
  unfold processList processOne
  rw [if_neg (by show ¬ (false = true); simp)]
  dsimp only
  rw [hd]
  dsimp only
  rw [hc]
  rotate_left
  · rfl
  dsimp only
  unfold ensure
  rw [if_neg (by rw [hs, List.length_range]; exact Nat.lt_irrefl n)]
  rfl

end Verif.Xrpl
