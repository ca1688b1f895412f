import Verif.Ledger

/-!
# Futurepass

Model of /repo/pallet/futurepass/src/lib.rs, of the proxy provider, proxy types and filters in
/repo/runtime/src/impls.rs 544-803, of the futurepass precompile
/repo/evm-precompiles/futurepass/src/lib.rs and of the registrar
/repo/evm-precompiles/futurepass-registrar/src/lib.rs 109-143. Line numbers without a file name refer to
the pallet, `rt` to runtime/src/impls.rs, `evm` to the futurepass precompile.

pallet-proxy, pallet-utility and pallet-balances are dependencies; the parts used are modelled by their contract:
a sorted list of proxy definitions per account with a reserved deposit, calls run as the proxied
account with a filter attached to the origin, and free and reserved balances with an existential deposit. Not modelled:
weights, announcements and delayed proxies (a delay other than zero can be stored but not used), pure proxies,
root calls, the reaping of dust, gas, the nesting limit of precompiles.
-/

namespace Verif.Futurepass

/-- rt 695-703 `ProxyType`. -/
inductive PType where
  | noPermission
  | any
  | nonTransfer
  | governance
  | staking
  | owner
  deriving DecidableEq, Repr

/-- rt 695-703: the derived order of the variants. -/
def PType.rank : PType → Nat
  | .noPermission => 0
  | .any => 1
  | .nonTransfer => 2
  | .governance => 3
  | .staking => 4
  | .owner => 5

/-- pallet-proxy `ProxyDefinition` (dependency). -/
structure Def where
  who : Acct
  ty : PType
  delay : Nat
  deriving DecidableEq, Repr

/-- The derived order of `ProxyDefinition`. -/
def Def.before (a b : Def) : Bool :=
  decide (a.who < b.who) || (decide (a.who = b.who) &&
    (decide (a.ty.rank < b.ty.rank) || (decide (a.ty.rank = b.ty.rank) && decide (a.delay < b.delay))))

/-- 160-184: the events, and a record of calls that ran as some account. -/
inductive Ev where
  | created (fp owner : Acct)
  | registered (fp delegate : Acct)
  | unregistered (fp delegate : Acct)
  | transferred (old : Acct) (new : Option Acct) (fp : Acct)
  | acted (as : Acct)
  deriving DecidableEq, Repr

/-- The environment: `addr n` is the address made of the prefix FFFFFFFF and the number `n` (533-552); `recover`
is the account that made a signature of (futurepass, delegate, type, deadline), 309-324, 570-615; /repo/runtime/src/lib.rs
1267-1278 for the constants. -/
structure Cfg where
  addr : Nat → Acct
  addr_inj : ∀ i j, addr i = addr j → i = j
  recover : Nat → Acct × Acct × PType × Nat → Option Acct
  base : Nat
  factor : Nat
  ed : Nat
  maxProxies : Nat

/-- 147-158 storage (the map `DefaultProxy` is never written), with the proxies and balances. -/
structure St where
  next : Nat
  holder : Acct → Option Acct
  proxies : Acct → List Def
  dep : Acct → Nat
  free : Acct → Nat
  reserved : Acct → Nat
  now : Nat
  events : List Ev

/-! ## Balances and proxies (dependencies) -/

/-- `Currency::transfer`; `keep` is the existence requirement of the sender. An account with a reserved balance
cannot be emptied either. -/
def pay (c : Cfg) (s : St) (src dst : Acct) (x : Nat) (keep : Bool) : Except Err St :=
  if x = 0 ∨ src = dst then .ok s
  else do
    ensure (x + (if keep = true ∨ 0 < s.reserved src then c.ed else 0) ≤ s.free src) "InsufficientBalance"
    ensure (c.ed ≤ s.free dst + x) "ExistentialDeposit"
    let f := upd s.free src (s.free src - x)
    pure { s with free := upd f dst (f dst + x) }

/-- pallet-proxy `deposit`. -/
def deposit (c : Cfg) (n : Nat) : Nat := if n = 0 then 0 else c.base + c.factor * n

/-- Insert into the sorted list. -/
def insertDef (d : Def) : List Def → List Def
  | [] => [d]
  | e :: es => if d.before e then d :: e :: es else e :: insertDef d es

/-- pallet-proxy: reserve or unreserve what the new number of proxies needs. -/
def setDeposit (c : Cfg) (s : St) (who : Acct) (l : List Def) : Except Err St := do
  let new := deposit c l.length
  let old := s.dep who
  if old < new then
    ensure (new - old + c.ed ≤ s.free who) "InsufficientBalance"
    pure { s with
      proxies := upd s.proxies who l
      dep := upd s.dep who new
      free := upd s.free who (s.free who - (new - old))
      reserved := upd s.reserved who (s.reserved who + (new - old)) }
  else
    pure { s with
      proxies := upd s.proxies who l
      dep := upd s.dep who new
      free := upd s.free who (s.free who + min (s.reserved who) (old - new))
      reserved := upd s.reserved who (s.reserved who - (old - new)) }

/-- pallet-proxy `add_proxy_delegate`. -/
def addProxy (c : Cfg) (s : St) (who : Acct) (d : Def) : Except Err St := do
  ensure (who ≠ d.who) "NoSelfProxy"
  ensure (d ∉ s.proxies who) "Duplicate"
  ensure ((s.proxies who).length < c.maxProxies) "TooMany"
  setDeposit c s who (insertDef d (s.proxies who))

/-- pallet-proxy `remove_proxy_delegate`. -/
def removeProxy (c : Cfg) (s : St) (who : Acct) (d : Def) : Except Err St := do
  ensure (d ∈ s.proxies who) "NotFound"
  setDeposit c s who ((s.proxies who).erase d)

/-- pallet-proxy `find_proxy`. -/
def findProxy (s : St) (real who : Acct) (force : Option PType) : Option Def :=
  (s.proxies real).find? (fun d => decide (d.who = who) && (decide (force = none) || decide (force = some d.ty)))

/-! ## The proxy provider -/

/-- rt 582-611 `add_delegate`. -/
def addDelegate (c : Cfg) (s : St) (funder fp d : Acct) (ty : PType) : Except Err St := do
  let extra := deposit c ((s.proxies fp).length + 1) - s.dep fp
  let extra := if s.free fp < c.ed then extra + c.ed else extra
  let s1 ← pay c s funder fp extra true
  addProxy c s1 fp ⟨d, ty, 0⟩

/-- rt 621-647 `remove_delegate`. -/
def removeDelegate (c : Cfg) (s : St) (receiver fp d : Acct) : Except Err St := do
  let x ← okOr (findProxy s fp d none) "NotProxy"
  let s1 ← removeProxy c s fp ⟨d, x.ty, 0⟩
  pay c s1 fp receiver (s.dep fp - s1.dep fp) true

/-- rt 650-663 `remove_account`. -/
def removeAccount (c : Cfg) (s : St) (receiver fp : Acct) : Except Err St :=
  let x := s.dep fp
  pay c { s with
    proxies := upd s.proxies fp []
    dep := upd s.dep fp 0
    free := upd s.free fp (s.free fp + min (s.reserved fp) x)
    reserved := upd s.reserved fp (s.reserved fp - x) } fp receiver x false

/-! ## The pallet -/

/-- 554-568 `do_create_futurepass`, 533-552 `generate_futurepass_account`. -/
def create (c : Cfg) (s : St) (who account : Acct) : Except Err St := do
  ensure (s.holder account = none) "AccountAlreadyRegistered"
  let fp := c.addr s.next
  let s1 ← addDelegate c { s with
    next := (s.next + 1) % U128
    holder := upd s.holder account (some fp) } who fp account .owner
  pure { s1 with events := .created fp account :: s1.events }

/-- 271-334 `register_delegate_with_signature`. -/
def register (c : Cfg) (s : St) (who fp d : Acct) (ty : PType) (deadline sig : Nat) : Except Err St := do
  ensure (who = fp ∨ s.holder who = some fp) "NotFuturepassOwner"
  ensure (who = fp ∨ findProxy s fp who none ≠ none) "DelegateNotRegistered"
  ensure (ty = .any) "PermissionDenied"
  ensure (findProxy s fp d none = none) "DelegateAlreadyExists"
  ensure (s.now ≤ deadline) "ExpiredDeadline"
  let r ← okOr (c.recover sig (fp, d, ty, deadline)) "InvalidSignature"
  ensure (r = d) "RegisterDelegateSignerMismatch"
  let s1 ← addDelegate c s who fp d ty
  pure { s1 with events := .registered fp d :: s1.events }

/-- 356-388 `unregister_delegate`. -/
def unregister (c : Cfg) (s : St) (who fp d : Acct) : Except Err St := do
  ensure (s.holder d ≠ some fp) "OwnerCannotUnregister"
  ensure (s.holder who = some fp ∨ who = fp ∨ who = d) "PermissionDenied"
  ensure (findProxy s fp d none ≠ none) "DelegateNotRegistered"
  let s1 ← removeDelegate c s who fp d
  pure { s1 with events := .unregistered fp d :: s1.events }

/-- 442-446: remove the listed delegates, except the new owner. -/
def removeOthers (c : Cfg) (caller fp new : Acct) : List Def → St → Except Err St
  | [], s => .ok s
  | d :: ds, s =>
    if d.who ≠ new then do
      let s1 ← removeDelegate c s caller fp d.who
      removeOthers c caller fp new ds s1
    else removeOthers c caller fp new ds s

/-- 415-461 `transfer_futurepass`. -/
def transfer (c : Cfg) (s : St) (who cur : Acct) (new : Option Acct) : Except Err St := do
  let fp ← okOr (s.holder cur) "NotFuturepassOwner"
  ensure (who = cur ∨ fp = who) "NotFuturepassOwner"
  let s1 := { s with holder := upd s.holder cur none }
  let s3 ← (match new with
    | some n => do
      ensure (s1.holder n = none) "AccountAlreadyRegistered"
      let s2 ← addDelegate c s1 who fp n .owner
      let s3 ← removeOthers c who fp n (s2.proxies fp) s2
      pure { s3 with holder := upd s3.holder n (some fp) }
    | none => removeAccount c s1 who fp : Except Err St)
  pure { s3 with events := .transferred cur new fp :: s3.events }

/-! ## Dispatch -/

/-- The calls that matter: those of this pallet, those of pallet-proxy, batches (of two; longer ones nest),
a transfer of the native token, and one standing for everything else. -/
inductive Call where
  | create (account : Acct)
  | register (fp d : Acct) (ty : PType) (deadline sig : Nat)
  | unregister (fp d : Acct)
  | transfer (cur : Acct) (new : Option Acct)
  | proxyExtrinsic (fp : Acct) (call : Call)
  | proxy (real : Acct) (force : Option PType) (call : Call)
  | addProxy (d : Def)
  | removeProxy (d : Def)
  | removeProxies
  | batch (all : Bool) (a b : Call)
  | send (dst : Acct) (x : Nat)
  | transact
  | other
  deriving DecidableEq, Repr

/-- 497-507: the calls that only the holder may have proxied. -/
def manages : Call → Bool
  | .register .. => true
  | .unregister .. => true
  | .transfer .. => true
  | _ => false

/-- rt 769-802 `InstanceFilter::filter`. -/
def filter (ty : PType) : Call → Bool
  | .proxy .. => false
  | .addProxy .. => false
  | .removeProxy .. => false
  | .removeProxies => false
  | .create .. => false
  | .proxyExtrinsic .. => false
  | .register .. => decide (ty = .owner)
  | .unregister .. => decide (ty = .owner)
  | .transfer .. => decide (ty = .owner)
  | _ => decide (ty = .owner) || decide (ty = .any)

/-- The filter attached to an origin: none for a signed one, that of the proxy definition for a proxied one
(pallet-proxy `do_proxy`, whose further restrictions concern calls refused by `filter` anyway). -/
def passes (f : Option PType) (call : Call) : Bool :=
  match f with
  | none => true
  | some ty => filter ty call

/-- Run a call as `who`. `proxy` succeeds whether or not the inner call does; a failed inner call has no effect.
483-512 `proxy_extrinsic`, rt 544-552 `FuturepassCallValidator`, rt 665-678 `proxy_call`. -/
def dispatch (c : Cfg) : Call → St → Acct → Option PType → Except Err St
  | .create account, s, who, f => do
    ensure (passes f (.create account) = true) "CallFiltered"
    create c s who account
  | .register fp d ty deadline sig, s, who, f => do
    ensure (passes f (.register fp d ty deadline sig) = true) "CallFiltered"
    register c s who fp d ty deadline sig
  | .unregister fp d, s, who, f => do
    ensure (passes f (.unregister fp d) = true) "CallFiltered"
    unregister c s who fp d
  | .transfer cur new, s, who, f => do
    ensure (passes f (.transfer cur new) = true) "CallFiltered"
    transfer c s who cur new
  | .proxyExtrinsic fp call, s, who, f => do
    ensure (passes f (.proxyExtrinsic fp call) = true) "CallFiltered"
    ensure (call ≠ .transact) "BlacklistedExtrinsic"
    ensure (manages call = false ∨ s.holder who = some fp) "NotFuturepassOwner"
    ensure (passes f (.proxy fp none call) = true) "CallFiltered"
    let d ← okOr (findProxy s fp who none) "NotProxy"
    ensure (d.delay = 0) "Unannounced"
    match dispatch c call s fp (some d.ty) with
    | .ok s1 => .ok s1
    | .error _ => .ok s
  | .proxy real force call, s, who, f => do
    ensure (passes f (.proxy real force call) = true) "CallFiltered"
    let d ← okOr (findProxy s real who force) "NotProxy"
    ensure (d.delay = 0) "Unannounced"
    match dispatch c call s real (some d.ty) with
    | .ok s1 => .ok s1
    | .error _ => .ok s
  | .addProxy d, s, who, f => do
    ensure (passes f (.addProxy d) = true) "CallFiltered"
    addProxy c s who d
  | .removeProxy d, s, who, f => do
    ensure (passes f (.removeProxy d) = true) "CallFiltered"
    removeProxy c s who d
  | .removeProxies, s, who, f => do
    ensure (passes f .removeProxies = true) "CallFiltered"
    setDeposit c s who []
  | .batch all a b, s, who, f => do
    ensure (passes f (.batch all a b) = true) "CallFiltered"
    match dispatch c a s who f with
    | .error e => if all then .error e else .ok s
    | .ok s1 =>
      match dispatch c b s1 who f with
      | .error e => if all then .error e else .ok s1
      | .ok s2 => .ok s2
  | .send dst x, s, who, f => do
    ensure (passes f (.send dst x) = true) "CallFiltered"
    pay c s who dst x false
  | .transact, s, who, f => do
    ensure (passes f .transact = true) "CallFiltered"
    pure { s with events := .acted who :: s.events }
  | .other, s, who, f => do
    ensure (passes f .other = true) "CallFiltered"
    pure { s with events := .acted who :: s.events }

/-! ## The precompiles -/

/-- A call to the precompile at a futurepass address: evm 90-103. `short` stands for call data of less than four
bytes, `unknown` for the remaining selectors. -/
inductive Sel where
  | register (d : Acct) (ty : PType) (deadline sig : Nat)
  | unregister (d : Acct)
  | transferOwnership (new : Acct)
  | renounceOwnership
  | short
  | unknown
  deriving DecidableEq, Repr

/-- Targets of an EVM call: a futurepass address, the registrar's `create` (`none`: call data of less than four
bytes), anything else. -/
inductive Target where
  | pass (fp : Acct) (sel : Sel)
  | registrar (account : Option Acct)
  | other
  deriving DecidableEq, Repr

/-- evm 90-101, 211-298, 596-660, registrar 109-143: the effect of calling a target as `caller`. Ownership calls look
only at the caller, not at the address that is called. -/
def evmCall (c : Cfg) (s : St) (caller : Acct) : Target → Except Err St
  | .pass fp (.register d ty deadline sig) => register c s caller fp d ty deadline sig
  | .pass fp (.unregister d) => unregister c s caller fp d
  | .pass _ (.transferOwnership new) => transfer c s caller caller (some new)
  | .pass _ .renounceOwnership => transfer c s caller caller none
  | .pass _ .short => .error "Revert"
  | .pass _ .unknown => .error "Revert"
  | .registrar (some account) => create c s caller account
  | .registrar none => .error "Revert"
  | .other => .ok { s with events := .acted caller :: s.events }

/-- evm 311-326: the calls that only the holder may have proxied; slicing four bytes off shorter call data
panics. -/
def evmManages : Target → Except Err Bool
  | .pass _ (.register ..) => .ok true
  | .pass _ (.unregister _) => .ok true
  | .pass _ (.transferOwnership _) => .ok true
  | .pass _ .short => .error "Panic"
  | _ => .ok false

/-- rt 736-766 `is_evm_proxy_call_allowed`, which slices the call data in the same way. -/
def evmFilter (ty : PType) : Target → Except Err Bool
  | .pass _ (.register ..) => .ok true
  | .pass _ (.unregister _) => .ok true
  | .pass _ (.transferOwnership _) => .ok true
  | .pass _ .short => .error "Panic"
  | .pass _ _ => .ok false
  | .registrar none => .error "Panic"
  | .registrar (some _) => .ok false
  | .other => .ok (decide (ty = .owner) || decide (ty = .any))

/-- evm 300-331 `proxy_call`, 338-583 `do_proxy`. -/
def evmProxy (c : Cfg) (s : St) (caller fp : Acct) (t : Target) : Except Err St := do
  let m ← evmManages t
  ensure (m = false ∨ s.holder caller = some fp) "NotFuturepassOwner"
  let d ← okOr (findProxy s fp caller none) "NotProxy"
  ensure (d.delay = 0) "Unannounced"
  let ok ← evmFilter d.ty t
  ensure (ok = true) "CallFiltered"
  evmCall c s fp t

/-- What EVM code can ask for: a plain call, or a call through a futurepass (`proxyCall`). -/
inductive Act where
  | direct (t : Target)
  | proxied (fp : Acct) (t : Target)
  deriving DecidableEq, Repr

/-- Run it for the caller of the frame. -/
def runAct (c : Cfg) (s : St) (caller : Acct) : Act → Except Err St
  | .direct t => evmCall c s caller t
  | .proxied fp t => evmProxy c s caller fp t

/-- The precompile at which it arrives accepts DELEGATECALL: /repo/runtime/src/precompiles.rs 62-98,
/repo/evm-precompiles/utils/src/precompile_set.rs 332-383. The futurepass addresses are the only ones of this model that do. -/
def allowsDelegate : Act → Bool
  | .direct (.pass _ _) => true
  | .direct _ => false
  | .proxied _ _ => true

/-- Account `who` calls the contract `m`, whose code then calls or delegate-calls a precompile. A call arrives with the
contract as the caller. A delegate call keeps the caller of the contract. -/
def viaContract (c : Cfg) (s : St) (who m : Acct) (deleg : Bool) (a : Act) : Except Err St :=
  if deleg then do
    ensure (allowsDelegate a = true) "Revert"
    runAct c s who a
  else runAct c s m a

/-! ## Histories -/

/-- Everything that can happen: a signed call, an EVM transaction to a precompile or through a contract, a new block,
money arriving. -/
inductive Op where
  | call (who : Acct) (call : Call)
  | evm (who : Acct) (a : Act)
  | contract (who m : Acct) (deleg : Bool) (a : Act)
  | block
  | endow (who : Acct) (x : Nat)
  deriving DecidableEq, Repr

/-- One step; failing operations have no effect. -/
def step (c : Cfg) (s : St) : Op → Except Err St
  | .call who call => dispatch c call s who none
  | .evm who a => runAct c s who a
  | .contract who m deleg a => viaContract c s who m deleg a
  | .block => .ok { s with now := s.now + 1 }
  | .endow who x => .ok { s with free := upd s.free who (s.free who + x) }

/-- 142-149: nothing has been created; the counter starts at one. -/
structure Genesis (c : Cfg) (s : St) : Prop where
  next : s.next = 1
  holder : ∀ a, s.holder a = none
  proxies : ∀ a, s.proxies a = []
  dep : ∀ a, s.dep a = 0
  reserved : ∀ a, s.reserved a = 0
  events : s.events = []

/-- Histories from `g` whose operations satisfy `G`. -/
inductive Reach (c : Cfg) (G : St → Op → Prop) (g : St) : St → Prop
  | init : Genesis c g → Reach c G g g
  | step {s s' : St} {op : Op} : Reach c G g s → G s op → step c s op = .ok s' → Reach c G g s'

theorem Reach.weaken {c : Cfg} {G H : St → Op → Prop} {g s : St} (hGH : ∀ s op, G s op → H s op)
    (h : Reach c G g s) : Reach c H g s := by
  induction h with
  | init hg => exact .init hg
  | step _ hG hs ih => exact .step ih (hGH _ _ hG) hs

/-- The state after trying an operation. -/
def after (c : Cfg) (s : St) (op : Op) : St :=
  match step c s op with
  | .ok s1 => s1
  | .error _ => s

/-- Run operations, ignoring failing ones. -/
def exec (c : Cfg) (s : St) : List Op → St
  | [] => s
  | op :: ops => exec c (after c s op) ops

/-- Every operation of the run satisfies `G`. -/
def Along (c : Cfg) (G : St → Op → Prop) (s : St) : List Op → Prop
  | [] => True
  | op :: ops => G s op ∧ Along c G (after c s op) ops

theorem exec_reach {c : Cfg} {G : St → Op → Prop} {g : St} : ∀ (ops : List Op) {s : St}, Reach c G g s →
    Along c G s ops → Reach c G g (exec c s ops)
  | [], _, h, _ => h
  | op :: ops, s, h, hg => by
    unfold exec
    refine exec_reach ops ?_ hg.2
    unfold after
    cases he : step c s op with
    | ok s' => exact .step h hg.1 he
    | error _ => exact h

end Verif.Futurepass
