import Verif.Ledger

/-!
# The XRPL bridge (`pallet/xrpl-bridge`)

Line numbers refer to `/repo/pallet/xrpl-bridge/src/lib.rs`. Hashes, currencies and XRPL addresses are `Nat`. Weights are not
modelled: how much the idle phase can do is an argument of the block operation. Signing requests of `pallet-ethy` accept every
message of this size (`/repo/pallet/ethy/src/impls.rs:76-84`); the transactions handed over are collected in `outbox`. Not
modelled: `reset_settled_xrpl_tx_data` (root), the source tag, events other than those kept in `credited`, the burning of the
token in `withdraw_nft`.
-/

namespace Verif.Xrpl

abbrev Hash := Nat
abbrev Cur := Nat
abbrev Addr := Nat

/-- types.rs:190-193 `XRPLDoorAccount`. -/
inductive Door where
  | main
  | nft
deriving DecidableEq

/-- types.rs:127-134 `XrplTxData`. -/
inductive Data where
  | payment (amount : Nat) (ben : Acct)
  | currency (amount : Nat) (ben : Acct) (cur : Cur)
  | xls20 (token : Nat) (ben : Acct)
deriving DecidableEq

/-- The part of a transaction handed to the signers that the properties are about. -/
inductive Body where
  /-- `serialize_xrp_tx`: drops -/
  | xrp (drops : Nat)
  /-- `serialize_asset_tx`: mantissa, exponent and currency -/
  | issued (mantissa : Nat) (exponent : Int) (cur : Cur)
  /-- NFT offers -/
  | nft
  /-- `SignerListSet` -/
  | signers
deriving DecidableEq

/-- A transaction handed to the signers. -/
structure Msg where
  door : Door
  /-- `TicketSequence` -/
  ticket : Nat
  /-- the account it is sent from -/
  src : Addr
  dest : Addr
  tag : Option Nat
  fee : Nat
  body : Body
deriving DecidableEq

/-- types.rs:45-110 `DelayedWithdrawal` with `WithdrawTransaction`; `cur` is `none` for XRP. -/
structure Wd where
  sender : Acct
  tag : Option Nat
  fee : Nat
  ticket : Nat
  amount : Nat
  dest : Addr
  asset : AssetId
  cur : Option Cur
deriving DecidableEq

/-- Constants of `Config` (/repo/pallet/xrpl-bridge/src/lib.rs:84-147). -/
structure Cfg where
  xrp : AssetId
  native : AssetId
  /-- the account of `PalletId` -/
  pot : Acct
  period : Nat
  maxPruned : Nat
  maxDelayed : Nat
  blockLimit : Nat
  txLimit : Nat
  ledgerLimit : Nat
  /-- does the codec accept this mantissa and exponent (`IssuedValueType::from_mantissa_exponent`, dependency) -/
  codec : Nat → Int → Bool

/-- Storage. Lists are empty where a key is absent. -/
structure St where
  ledger : Ledger
  /-- decimals of assets -/
  dec : AssetId → Nat
  relayer : Acct → Bool
  /-- `XRPLToAssetId`, `AssetIdToXRPL` -/
  toAsset : Cur → Option AssetId
  toXrpl : AssetId → Option Cur
  /-- `ProcessXRPTransaction` -/
  proc : Nat → List Hash
  /-- `ProcessXRPTransactionDetails`: ledger index (64 bits) and data -/
  details : Hash → Option (Nat × Data)
  /-- `SettledXRPTransactionDetails` -/
  settled : Nat → List Hash
  /-- `HighestSettledLedgerIndex`, `HighestPrunedLedgerIndex`, `SubmissionWindowWidth` -/
  highest : Nat
  pruned : Nat
  window : Nat
  /-- `ChallengeXRPTransactionList` -/
  challenged : Hash → Bool
  /-- `PaymentDelay` -/
  delay : AssetId → Option (Nat × Nat)
  payments : Nat → Option Wd
  sched : Nat → List Nat
  /-- `NextDelayProcessBlock` -/
  ptr : Nat
  nextId : Nat
  /-- `DoorTicketSequence`, `DoorTicketSequenceParams`, `DoorTicketSequenceParamsNext`: start and size -/
  seq : Door → Nat
  params : Door → Nat × Nat
  next : Door → Nat × Nat
  /-- `DoorTxFee`, `DoorAddress` -/
  fee : Door → Nat
  door : Door → Option Addr
  now : Nat
  /-- transactions handed to the signers -/
  outbox : List Msg
  /-- deposits carried out (events `ProcessingOk`): hash, ledger index as stored, data -/
  credited : List (Hash × Nat × Data)
  /-- delayed withdrawals whose submission failed (`let _ =`, 1048) -/
  lost : List Wd

/-! ## Deposits -/

/-- The first ledger index that may still be submitted (489-490). -/
def windowEnd (s : St) : Nat := s.highest - s.window

/-- 486-488: the currency has to be known. -/
def known (s : St) : Data → Prop
  | .currency _ _ cur => s.toAsset cur ≠ none
  | _ => True

instance (s : St) (d : Data) : Decidable (known s d) := by
  cases d <;> unfold known <;> infer_instance

/-- 473-503 `submit_transaction`, 1186-1209 `add_to_relay`, `add_to_xrp_process`. `i` is a `u64` of which 32 bits count. -/
def submit (c : Cfg) (s : St) (who : Acct) (i : Nat) (h : Hash) (d : Data) : Except Err St := do
  ensure (s.relayer who = true) "NotPermitted"
  ensure (known s d) "AssetNotSupported"
  ensure (windowEnd s ≤ i % U32) "OutSideSubmissionWindow"
  ensure (s.details h = none) "TxReplay"
  ensure ((s.proc (s.now + c.period)).length < c.txLimit) "CannotProcessMoreTransactionsAtThatBlock"
  pure { s with
    details := upd s.details h (some (i, d))
    proc := upd s.proc (s.now + c.period) (s.proc (s.now + c.period) ++ [h]) }

/-- 509-516 `submit_challenge`. -/
def challenge (s : St) (h : Hash) : St := { s with challenged := upd s.challenged h true }

/-- 955-977 `process_asset_deposit`. -/
def creditAsset (c : Cfg) (L : Ledger) (a : AssetId) (ben : Acct) (x : Nat) : Except Err Ledger :=
  if a = c.native then L.transfer a c.pot ben x else L.mint a ben x

/-- 900-921: carry out a deposit; `x` is the outcome of `deposit_xls20_token`. -/
def credit (c : Cfg) (s : St) (x : Bool) : Data → Except Err Ledger
  | .payment amt ben => creditAsset c s.ledger c.xrp ben amt
  | .currency amt ben cur => do
    let a ← okOr (s.toAsset cur) "AssetNotSupported"
    creditAsset c s.ledger a ben amt
  | .xls20 _ _ => if x = true then .ok s.ledger else .error "Xls20"

/-- 899-947: one transaction; an error is only reported, a full settled list panics. -/
def processOne (c : Cfg) (x : Hash → Bool) (s : St) (h : Hash) : Except Err St :=
  if s.challenged h = true then .ok s
  else match s.details h with
    | none => .ok s
    | some (i, d) =>
      match credit c s (x h) d with
      | .error _ => .ok s
      | .ok L => do
        ensure ((s.settled (i % U32)).length < c.ledgerLimit) "panic"
        pure { s with
          ledger := L
          settled := upd s.settled (i % U32) (s.settled (i % U32) ++ [h])
          highest := max s.highest (i % U32)
          credited := s.credited ++ [(h, i % U32, d)] }

/-- 900-947: the loop over the transactions that are due. -/
def processList (c : Cfg) (x : Hash → Bool) : List Hash → St → Except Err St
  | [], s => .ok s
  | h :: hs, s => do
    let s1 ← processOne c x s h
    processList c x hs s1

/-- 879-951 `process_xrp_tx`. -/
def processTx (c : Cfg) (x : Hash → Bool) (s : St) : Except Err St :=
  processList c x (s.proc s.now) { s with proc := upd s.proc s.now [] }

/-- Forget transactions. -/
def forget (d : Hash → Option (Nat × Data)) (hs : List Hash) : Hash → Option (Nat × Data) :=
  fun h => if h ∈ hs then none else d h

/-- 1131-1171: the loop of `clear_storages`; each entry of the list is the number of hashes the weight allows for the next
ledger index. -/
def clearLoop (stop : Nat) : List Nat → St → St
  | [], s => s
  | k :: ks, s =>
    if s.pruned < stop then
      if k < (s.settled s.pruned).length then
        { s with
          details := forget s.details ((s.settled s.pruned).take k)
          settled := upd s.settled s.pruned ((s.settled s.pruned).drop k) }
      else clearLoop stop ks { s with
        details := forget s.details (s.settled s.pruned)
        settled := upd s.settled s.pruned []
        pruned := s.pruned + 1 }
    else s

/-- 1091-1184 `clear_storages`. -/
def clear (c : Cfg) (ks : List Nat) (s : St) : St :=
  clearLoop (min (windowEnd s) ((s.pruned + c.maxPruned) % U32)) ks s

/-- 780-805 `prune_settled_ledger_index` (root). -/
def prune (s : St) (i : Nat) : Except Err St := do
  ensure (i < windowEnd s) "CannotPruneActiveLedgerIndex"
  ensure (s.settled i ≠ []) "NoTransactionDetails"
  pure { s with
    details := forget s.details (s.settled i)
    settled := upd s.settled i [] }

/-! ## Tickets -/

/-- 665-697 `set_ticket_sequence_next_allocation`. -/
def nextAlloc (s : St) (who : Acct) (d : Door) (start size : Nat) : Except Err St := do
  ensure (start < U32 ∧ size < U32) "not a u32"
  ensure (s.relayer who = true) "NotPermitted"
  ensure (s.seq d ≤ start ∧ (s.params d).1 ≤ start ∧ size ≠ 0) "NextTicketSequenceParamsInvalid"
  pure { s with next := upd s.next d (start, size) }

/-- 702-736 `set_ticket_sequence_current_allocation` (root). -/
def curAlloc (s : St) (d : Door) (t start size : Nat) : Except Err St := do
  ensure (t < U32 ∧ start < U32 ∧ size < U32) "not a u32"
  ensure (s.seq d ≤ t ∧ (s.params d).1 ≤ start ∧ size ≠ 0) "TicketSequenceParamsInvalid"
  pure { s with
    seq := upd s.seq d t
    params := upd s.params d (start, size) }

/-- 1704-1753 `get_door_ticket_sequence`; the threshold event is not modelled. -/
def ticket (s : St) (d : Door) : Except Err (St × Nat) := do
  ensure (s.seq d + 1 < U32) "Overflow"
  ensure ((s.params d).1 + (s.params d).2 < U32) "Overflow"
  if (s.params d).1 + (s.params d).2 ≤ s.seq d then do
    ensure (s.next d ≠ (0, 0) ∧ (s.next d).1 ≠ (s.params d).1) "NextTicketSequenceParamsNotSet"
    ensure ((s.next d).1 + 1 < U32) "Overflow"
    pure ({ s with
      params := upd s.params d (s.next d)
      next := upd s.next d (0, 0)
      seq := upd s.seq d ((s.next d).1 + 1) }, (s.next d).1)
  else pure ({ s with seq := upd s.seq d (s.seq d + 1) }, s.seq d)

/-! ## Withdrawals -/

/-- 1644-1647: divide by ten while the value has more than 16 digits, at most `n` times; counts the digits dropped. -/
def shrinkLoop : Nat → Nat → Nat × Nat
  | 0, x => (x, 0)
  | n + 1, x =>
    if 9999999999999999 < x then
      ((shrinkLoop n (x / 10)).1, (shrinkLoop n (x / 10)).2 + 1)
    else (x, 0)

/-- 1644-1647: the whole loop; it ends after fewer than `x` rounds. -/
def shrink (x : Nat) : Nat × Nat := shrinkLoop x x

/-- 1632-1653 `balance_to_mantissa_exponent`. -/
def mantExp (x dec : Nat) : Except Err (Nat × Int) := do
  ensure (dec < 128) "InvalidAssetDecimals"
  pure ((shrink x).1, ((shrink x).2 : Int) - dec)

/-- 1611-1628 `saturate_balance`; `10u128.pow(decimals)` wraps. -/
def saturate (c : Cfg) (s : St) (x : Nat) (a : AssetId) : Except Err Nat :=
  if a = c.xrp then .ok x
  else do
    ensure (s.dec a < 128) "InvalidAssetDecimals"
    let r ← mantExp x 0
    ensure (x - r.1 * 10 ^ r.2.toNat < 10 ^ s.dec a % U128) "AssetRoundingTooHigh"
    pure (r.1 * 10 ^ r.2.toNat)

/-- 1454-1483 `submit_withdraw_request`, 1507-1605 `serialize_xrp_tx`, `serialize_asset_tx`. XRP amounts saturate at `u64`. -/
def send (c : Cfg) (s : St) (addr : Addr) (w : Wd) : Except Err St :=
  match w.cur with
  | none => .ok { s with
      outbox := s.outbox ++ [⟨.main, w.ticket, addr, w.dest, w.tag, w.fee, .xrp (min w.amount (U64 - 1))⟩] }
  | some cur => do
    let r ← mantExp w.amount (s.dec w.asset)
    ensure (c.codec r.1 r.2 = true) "InvalidMantissaExponentConversion"
    pure { s with
      outbox := s.outbox ++ [⟨.main, w.ticket, addr, w.dest, w.tag, w.fee, .issued r.1 r.2 cur⟩] }

/-- 1267-1381 `process_xrp_withdrawal`, `process_root_withdrawal`, `process_asset_withdrawal`: take the money. -/
def take (c : Cfg) (s : St) (who : Acct) (a : AssetId) (x : Nat) : Except Err (Ledger × Option Cur) :=
  if a = c.xrp then do
    ensure (x + s.fee .main < U128) "WithdrawInvalidAmount"
    let L ← s.ledger.burn a who (x + s.fee .main)
    pure (L, none)
  else do
    let cur ← okOr (s.toXrpl a) "AssetNotSupported"
    let L ← s.ledger.burn c.xrp who (s.fee .main)
    let L' ← if a = c.native then L.transfer a who c.pot x else L.burn a who x
    pure (L', some cur)

/-- 1414-1450 `delay_payment`. -/
def delayPayment (c : Cfg) (s : St) (d : Nat) (w : Wd) : Except Err St := do
  ensure (s.nextId + 1 < U64) "NoAvailablePaymentIds"
  ensure ((s.sched (min (s.now + d) (U32 - 1))).length < c.maxDelayed) "DelayScheduleAtCapacity"
  pure { s with
    sched := upd s.sched (min (s.now + d) (U32 - 1)) (s.sched (min (s.now + d) (U32 - 1)) ++ [s.nextId])
    payments := upd s.payments s.nextId (some w)
    nextId := s.nextId + 1 }

/-- The delay of a withdrawal (1247-1252). -/
def delayFor (s : St) (a : AssetId) (x : Nat) : Option Nat :=
  match s.delay a with
  | some (m, d) => if m ≤ x then some d else none
  | none => none

/-- 1214-1264 `add_to_withdraw`. -/
def withdraw (c : Cfg) (s : St) (who : Acct) (a : AssetId) (x : Nat) (dest : Addr) (tag : Option Nat) : Except Err St := do
  ensure (x < U128) "not a u128"
  ensure (x ≠ 0) "WithdrawInvalidAmount"
  let y ← saturate c s x a
  let addr ← okOr (s.door .main) "DoorAddressNotSet"
  let r ← take c s who a y
  let t ← ticket { s with ledger := r.1 } .main
  match delayFor s a y with
  | some d => delayPayment c t.1 d ⟨who, tag, s.fee .main, t.2, y, dest, a, r.2⟩
  | none => send c t.1 addr ⟨who, tag, s.fee .main, t.2, y, dest, a, r.2⟩

/-- 1033-1049: one delayed payment; failures are ignored. -/
def payOne (c : Cfg) (addr : Addr) (s : St) (id : Nat) : St :=
  match s.payments id with
  | none => s
  | some w =>
    match send c { s with payments := upd s.payments id none } addr w with
    | .ok s1 => s1
    | .error _ => { s with
        payments := upd s.payments id none
        lost := s.lost ++ [w] }

/-- 1010-1070: the loop of `process_delayed_payments`; each entry of the list is the number of payments the weight allows for
the block at the pointer. -/
def delayLoop (c : Cfg) (addr : Addr) (limit : Nat) : List Nat → St → St
  | [], s => s
  | k :: ks, s =>
    if s.ptr ≤ limit then
      if k < (s.sched s.ptr).length then
        ((s.sched s.ptr).take k).foldl (payOne c addr) { s with sched := upd s.sched s.ptr ((s.sched s.ptr).drop k) }
      else delayLoop c addr limit ks
        ((s.sched s.ptr).foldl (payOne c addr) { s with
          sched := upd s.sched s.ptr []
          ptr := s.ptr + 1 })
    else s

/-- 980-1088 `process_delayed_payments`. -/
def delayed (c : Cfg) (ks : List Nat) (s : St) : St :=
  match s.door .main with
  | none => s
  | some addr => delayLoop c addr (min s.now (s.ptr + c.blockLimit)) ks s

/-- 275-285: the idle phase of the current block (`ks`, `ps`: what the weight allows), then the next block begins (270-273). -/
def block (c : Cfg) (s : St) (ks ps : List Nat) (x : Hash → Bool) : Except Err St := do
  ensure (s.now + 1 + c.period < U32) "end of block numbers"
  processTx c x { clear c ps (delayed c ks s) with now := s.now + 1 }

/-- 829-846 `generate_nft_accept_offer`, 1384-1409 `do_nft_withdrawal`: only what concerns the ticket. -/
def nftTx (s : St) (dest : Addr) : Except Err St := do
  let addr ← okOr (s.door .nft) "DoorAddressNotSet"
  let t ← ticket s .nft
  pure { t.1 with outbox := t.1.outbox ++ [⟨.nft, t.2, addr, dest, none, s.fee .nft, .nft⟩] }

/-- 1757-1793 `submit_signer_list_set_request`: one door. -/
def signersOne (s : St) (d : Door) : Except Err St := do
  let addr ← okOr (s.door d) "DoorAddressNotSet"
  let t ← ticket s d
  pure { t.1 with outbox := t.1.outbox ++ [⟨d, t.2, addr, addr, none, s.fee d, .signers⟩] }

/-- Both doors, from a hook: what was done before an error stays. -/
def signers (s : St) : St :=
  match signersOne s .main with
  | .error _ => s
  | .ok s1 => match signersOne s1 .nft with
    | .error _ => s1
    | .ok s2 => s2

/-- The calls (/repo/pallet/xrpl-bridge/src/lib.rs:467-869) and blocks
(/repo/pallet/xrpl-bridge/src/lib.rs:290-304). -/
inductive Op where
  | submit (who : Acct) (i : Nat) (h : Hash) (d : Data)
  | challenge (who : Acct) (h : Hash)
  | withdraw (who : Acct) (a : AssetId) (x : Nat) (dest : Addr) (tag : Option Nat)
  | block (ks ps : List Nat) (x : Hash → Bool)
  | nftTx (dest : Addr)
  | signers
  | nextAlloc (who : Acct) (d : Door) (start size : Nat)
  /-- root -/
  | curAlloc (d : Door) (t start size : Nat)
  | prune (i : Nat)
  | setRelayer (who : Acct) (b : Bool)
  | setDelay (a : AssetId) (v : Option (Nat × Nat))
  | setFee (d : Door) (x : Nat)
  | setDoor (d : Door) (a : Option Addr)
  | setMap (a : AssetId) (cur : Cur)
  | removeMap (a : AssetId)
  /-- other pallets: balances and metadata -/
  | ledger (L : Ledger)
  | setDec (a : AssetId) (n : Nat)

/-- Each case is the function of that name above, or written out. -/
def step (c : Cfg) (s : St) : Op → Except Err St
  | .submit w i h d => submit c s w i h d
  | .challenge _ h => .ok (challenge s h)
  | .withdraw w a x d t => withdraw c s w a x d t
  | .block ks ps x => block c s ks ps x
  | .nftTx d => nftTx s d
  | .signers => .ok (signers s)
  | .nextAlloc w d a b => nextAlloc s w d a b
  | .curAlloc d t a b => curAlloc s d t a b
  | .prune i => prune s i
  | .setRelayer w b => .ok { s with relayer := upd s.relayer w b }
  | .setDelay a v => .ok { s with delay := upd s.delay a v }
  | .setFee d x => do
    ensure (x < U64) "not a u64"
    pure { s with fee := upd s.fee d x }
  | .setDoor d a => .ok { s with door := upd s.door d a }
  | .setMap a cur => .ok { s with
      toXrpl := upd s.toXrpl a (some cur)
      toAsset := upd s.toAsset cur (some a) }
  | .removeMap a => do
    let cur ← okOr (s.toXrpl a) "AssetNotSupported"
    pure { s with
      toXrpl := upd s.toXrpl a none
      toAsset := upd s.toAsset cur none }
  | .ledger L => .ok { s with ledger := L }
  | .setDec a n => .ok { s with dec := upd s.dec a n }

/-- The state from which the history starts: nothing submitted, scheduled or sent yet. -/
structure Genesis (s : St) : Prop where
  sound : s.ledger.Sound
  proc : ∀ b, s.proc b = []
  details : ∀ h, s.details h = none
  settled : ∀ i, s.settled i = []
  payments : ∀ i, s.payments i = none
  sched : ∀ b, s.sched b = []
  ptr : s.ptr ≤ s.now
  now : s.now < U32
  seq : ∀ d, s.next d = (0, 0)
  outbox : s.outbox = []
  credited : s.credited = []
  lost : s.lost = []

/-- Histories from `g` whose operations satisfy `G`. -/
inductive Reach (c : Cfg) (G : St → Op → Prop) (g : St) : St → Prop
  | init : Genesis g → Reach c G g g
  | step {s s' : St} {op : Op} : Reach c G g s → G s op → step c s op = .ok s' → Reach c G g s'

/-- Continuing from a state. -/
inductive Run (c : Cfg) (G : St → Op → Prop) : St → List Op → St → Prop
  | nil {s : St} : Run c G s [] s
  | cons {s s1 s' : St} {op : Op} {ops : List Op} : G s op → step c s op = .ok s1 → Run c G s1 ops s' →
      Run c G s (op :: ops) s'

/-- The state after trying an operation. -/
def after (c : Cfg) (s : St) (op : Op) : St :=
  match step c s op with
  | .ok s1 => s1
  | .error _ => s

/-- Run operations, ignoring failing ones. -/
def exec (c : Cfg) (s : St) : List Op → St
  | [] => s
  | op :: ops => exec c (after c s op) ops

/-- Every operation of the run satisfies `G`. -/
def Along (c : Cfg) (G : St → Op → Prop) (s : St) : List Op → Prop
  | [] => True
  | op :: ops => G s op ∧ Along c G (after c s op) ops

theorem exec_reach {c : Cfg} {G : St → Op → Prop} {g : St} : ∀ (ops : List Op) {s : St}, Reach c G g s →
    Along c G s ops → Reach c G g (exec c s ops)
  | [], _, h, _ => h
  | op :: ops, s, h, hg => by
    unfold exec
    refine exec_reach ops ?_ hg.2
    unfold after
    cases he : step c s op with
    | ok s' => exact .step h hg.1 he
    | error _ => exact h

theorem Reach.run {c : Cfg} {G : St → Op → Prop} {g s s' : St} {ops : List Op} (h : Reach c G g s) (hr : Run c G s ops s') :
    Reach c G g s' := by
  induction hr with
  | nil => exact h
  | cons hg hs _ ih => exact ih (.step h hg hs)

end Verif.Xrpl
