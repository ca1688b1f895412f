import Verif.Xrpl.Model

/-!
# Control of the XRPL door accounts

Who signs for the door accounts and how the chain asks XRPL to change it: `/repo/pallet/ethy/src/impls.rs` and
`/repo/pallet/ethy/src/lib.rs` (the notaries whose keys are allowed for XRPL, the handover at the end of an era, requests
that wait while the bridge is paused) together with the bridge of `Verif.Xrpl`, whose every operation is part of the history.
Unless said otherwise line numbers refer to `impls.rs`.

Simplified: the end of a session and the start of the next are one operation; block numbers are not counted, so the change of
authorities and the scheduled call happen at any time of their session; whether the message to Ethereum can be sent (it is
modelled in `Verif.Outbound`) is an argument; the nodes learn the signers in the block that changes them
(`/repo/ethy-gadget/src/worker.rs:273-297`). Proof ids are left out: a request is identified with its content.
-/

namespace Verif.Door

open Verif.Xrpl (Addr Msg Body)

/-- A session key of a notary. -/
abbrev Key := Nat

/-- Constants of the two pallets (`Config`, /repo/pallet/ethy/src/lib.rs:140-227 and
/repo/pallet/xrpl-bridge/src/lib.rs:84-147) and the conversion of keys. -/
structure Cfg where
  x : Xrpl.Cfg
  /-- the XRPL account of a key (`EthyEcdsaToXRPLAccountId`, `/repo/primitives/src/ethy.rs:255-270`) -/
  addr : Key → Addr
  /-- `MaxXrplKeys` -/
  maxKeys : Nat

/-- A transaction handed to the signers; the last two fields are those of a `SignerListSet`
(`/repo/pallet/xrpl-bridge/src/lib.rs:1774-1785`, every weight is one). -/
structure Req where
  msg : Msg
  list : List Addr
  quorum : Nat
deriving DecidableEq

/-- A signer list and tickets of an account of XRPL. -/
structure Account where
  list : List Addr
  quorum : Nat
  /-- tickets that can be used -/
  tickets : Nat → Bool
  /-- tickets that were ever created -/
  made : Nat → Bool

/-- The ledger of XRPL: accounts and the transactions carried out by multi-signature, the latest last. -/
structure Xl where
  acct : Addr → Account
  applied : List Req

/-- Of the storage of `pallet-ethy` (/repo/pallet/ethy/src/lib.rs:230-411) what decides who signs for XRPL, and the state of
the bridge. -/
structure St where
  x : Xrpl.St
  /-- `NotaryKeys`, `NextNotaryKeys`, `NotaryXrplKeys` -/
  keys : List Key
  next : List Key
  xrpl : List Key
  /-- `XrplDoorSigners` -/
  allowed : Key → Bool
  /-- `BridgePaused` -/
  manual : Bool
  change : Bool
  /-- `AuthoritiesChangedThisEra` -/
  changed : Bool
  /-- is the session the last of its era -/
  final : Bool
  /-- `NextAuthorityChange` is set -/
  due : Bool
  /-- the scheduled call of `finalise_authorities_change` -/
  sched : Option (List Key)
  /-- the XRPL signers the nodes know -/
  active : List Key
  /-- `PendingEventProofs` -/
  delayed : List Req
  /-- every transaction handed over, in order -/
  requests : List Req
  /-- signing requests in blocks, with the signers of that time -/
  proofs : List (Req × List Key)
  xl : Xl

/-- 222-229 `get_xrpl_notary_keys`. -/
def signersOf (c : Cfg) (s : St) (keys : List Key) : List Key := (keys.filter s.allowed).take c.maxKeys

/-- 95-98 `bridge_paused`. -/
def paused (s : St) : Bool := s.manual || s.change

/-- 943-985 `do_request_event_proof`. -/
def request (s : St) (r : Req) : St :=
  if paused s then { s with
    requests := s.requests ++ [r]
    delayed := s.delayed ++ [r] }
  else { s with
    requests := s.requests ++ [r]
    proofs := s.proofs ++ [(r, s.active)] }

/-- 76-84 `sign_xrpl_transaction` for what the bridge has added to its list; `l` and `q` are the entries and the quorum of a
`SignerListSet`. -/
def post (s : St) (x' : Xrpl.St) (l : List Addr) (q : Nat) : St :=
  ((x'.outbox.drop s.x.outbox.length).map (fun m => (⟨m, l, q⟩ : Req))).foldl request { s with x := x' }

/-- `/repo/pallet/xrpl-bridge/src/lib.rs:1757-1793` `submit_signer_list_set_request`, called from a hook: what was done before
an error stays. Tells whether it succeeded. -/
def submitLists (c : Cfg) (s : St) (keys : List Key) : St × Bool :=
  match Xrpl.signersOne s.x .main with
  | .error _ => (s, false)
  | .ok x1 =>
    match Xrpl.signersOne x1 .nft with
    | .error _ => (post s x1 (keys.map c.addr) (keys.length - 1), false)
    | .ok x2 => (post (post s x1 (keys.map c.addr) (keys.length - 1)) x2 (keys.map c.addr) (keys.length - 1), true)

/-- 860-898: ask XRPL for the next signers unless they are the same; the keys are compared after sorting. -/
def askLists (c : Cfg) (s : St) : St :=
  if (signersOf c s s.next).isPerm s.xrpl then s else (submitLists c s (signersOf c s s.next)).1

/-- 814-905 `handle_authorities_change`. `eth`: could the message to Ethereum be sent. -/
def handleChange (c : Cfg) (s : St) (eth : Bool) : St := { askLists c s with
  changed := s.changed || eth
  change := true
  due := false }

/-- 907-941 `do_finalise_authorities_change`, with 209-219 `update_xrpl_notary_keys`. -/
def finalise (c : Cfg) (s : St) (keys : List Key) : St := { s with
  change := false
  changed := false
  keys := keys
  xrpl := signersOf c s keys
  active := signersOf c s keys }

/-- 1053-1085 `on_before_session_ending`. -/
def ending (c : Cfg) (s : St) (eth : Bool) : St :=
  if s.final then
    if s.changed then finalise c s s.next
    else { handleChange c s eth with sched := some s.next }
  else s

/-- 1053-1085, then 1026-1051 `on_new_session` with the keys `queued`; `final`: is the session that starts the last of its
era. -/
def rotate (c : Cfg) (s : St) (queued : List Key) (final eth : Bool) : St :=
  { ending c s eth with
    next := queued
    final := final
    due := (ending c s eth).due || final }

/-- lib.rs:786-804 `set_xrpl_door_signers` (root); the number of entries is cut to eight bits (793), `MaxNewSigners` is 20. -/
def whitelist (c : Cfg) (s : St) (l : List (Key × Bool)) : Except Err St := do
  ensure (l.length % 256 < 20) "MaxNewSignersExceeded"
  let s1 := { s with allowed := l.foldl (fun f (e : Key × Bool) => upd f e.1 e.2) s.allowed }
  pure { s1 with xrpl := signersOf c s1 s.keys }

/-- lib.rs:630-670: the delayed requests in `on_idle`, one of them. -/
def release (s : St) (r : Req) : Except Err St := do
  ensure (paused s = false) "BridgePaused"
  ensure (r ∈ s.delayed) "not waiting"
  pure { s with
    delayed := s.delayed.erase r
    proofs := s.proofs ++ [(r, s.active)] }

/-! ## XRPL

The rules of multi-signing, `SignerListSet` and tickets as documented for XRPL. Trusted: the master and regular keys of the
accounts are not used. Whether a payment succeeds when it is carried out is not modelled. -/

/-- A signer list XRPL accepts; the weights are one. -/
def ValidList (self : Addr) (l : List Addr) (q : Nat) : Prop :=
  q ≠ 0 ∧ q ≤ l.length ∧ l.Nodup ∧ self ∉ l ∧ l.length ≤ 32

instance (self : Addr) (l : List Addr) (q : Nat) : Decidable (ValidList self l q) := by unfold ValidList; infer_instance

/-- A transaction with the signatures of `who` is submitted. -/
def relay (X : Xl) (r : Req) (who : List Addr) : Except Err Xl := do
  ensure (who.Nodup) "temBAD_SIGNATURE"
  ensure (∀ a ∈ who, a ∈ (X.acct r.msg.src).list) "tefBAD_SIGNATURE"
  ensure ((X.acct r.msg.src).quorum ≤ who.length ∧ who ≠ []) "tefBAD_QUORUM"
  ensure ((X.acct r.msg.src).tickets r.msg.ticket = true) "tefNO_TICKET"
  if r.msg.body = .signers then do
    ensure (ValidList r.msg.src r.list r.quorum) "temMALFORMED"
    pure ⟨upd X.acct r.msg.src { X.acct r.msg.src with
        list := r.list
        quorum := r.quorum
        tickets := upd (X.acct r.msg.src).tickets r.msg.ticket false }, X.applied ++ [r]⟩
  else pure ⟨upd X.acct r.msg.src { X.acct r.msg.src with
        tickets := upd (X.acct r.msg.src).tickets r.msg.ticket false }, X.applied ++ [r]⟩

/-- A ticket is created; the number of a ticket is a sequence number of the account and never comes again. -/
def ticket (X : Xl) (a : Addr) (t : Nat) : Except Err Xl := do
  ensure ((X.acct a).made t = false) "tefPAST_SEQ"
  pure ⟨upd X.acct a { X.acct a with
      tickets := upd (X.acct a).tickets t true
      made := upd (X.acct a).made t true }, X.applied⟩

/-! ## Histories -/

/-- What happens: any operation of the bridge, calls of `pallet-ethy` (/repo/pallet/ethy/src/lib.rs:782-1099) and sessions
(impls.rs:989-1076). -/
inductive Op where
  /-- an operation of the XRPL bridge -/
  | x (op : Xrpl.Op)
  /-- root -/
  | whitelist (l : List (Key × Bool))
  /-- root: lib.rs:930-937 `set_bridge_paused` -/
  | pause (b : Bool)
  /-- lib.rs:529-535: the block set by 1043-1050 -/
  | change (eth : Bool)
  /-- a session ends, the next begins -/
  | rotate (queued : List Key) (final eth : Bool)
  /-- lib.rs:939-950 `finalise_authorities_change`, by the scheduler -/
  | finalise
  | release (r : Req)
  /-- on XRPL -/
  | relay (r : Req) (who : List Addr)
  | ticket (a : Addr) (t : Nat)

/-- The handover is not an operation of its own: it is part of `change` and `rotate`. -/
def isSigners : Xrpl.Op → Bool
  | .signers => true
  | _ => false

/-- Each case cites its function where it is defined above. -/
def step (c : Cfg) (s : St) : Op → Except Err St
  | .x op => do
    ensure (isSigners op = false) "not a call"
    let x' ← Xrpl.step c.x s.x op
    pure (post s x' [] 0)
  | .whitelist l => whitelist c s l
  | .pause b => .ok { s with manual := b }
  | .change eth => do
    ensure (s.due = true) "not the block"
    pure (handleChange c s eth)
  | .rotate queued final eth => .ok (rotate c s queued final eth)
  | .finalise => do
    let keys ← okOr s.sched "not scheduled"
    pure { finalise c s keys with sched := none }
  | .release r => release s r
  | .relay r who => do
    let X ← relay s.xl r who
    pure { s with xl := X }
  | .ticket a t => do
    let X ← ticket s.xl a t
    pure { s with xl := X }

end Verif.Door
