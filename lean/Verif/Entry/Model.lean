import Verif.Ledger

/-!
# Entry points: how a call gets from outside the chain to the code that runs it

The five ways in: an ordinary signed extrinsic, an Ethereum transaction, `EVM::call`, an XRPL-signed
message (`pallet/xrpl`) and a doughnut (`pallet/doughnut`); the maintenance switches and block lists
(`pallet/maintenance-mode`) that are meant to guard them; nonces; and the wrappers a call can be nested
in (sudo, batches, fee proxy, futurepass proxy).

Abbreviations in the citations: `mm` = /repo/pallet/maintenance-mode/src/lib.rs, `xr` =
/repo/pallet/xrpl/src/lib.rs, `xt` = /repo/pallet/xrpl/src/types.rs, `dn` = /repo/pallet/doughnut/src/lib.rs,
`rt` = /repo/runtime/src/lib.rs, `im` = /repo/runtime/src/impls.rs, `fx` = /repo/pallet/fee-proxy/src.

What a pallet does when its call finally runs is not modelled here (other modules do that): running a
call appends it, with the origin it ran under, to a log. Signatures and hashes are arbitrary functions of
the configuration. Weights, eras and the fee token swap are left out; a fee is an arbitrary function of
the call. Calls that only matter as carriers (`as_recovered`, `as_multi`, `dispatch_as`, scheduled calls)
are not modelled.
-/

namespace Verif.Entry

/-- Byte strings: names of pallets and calls, text. -/
abbrev Name := List Nat

/-- The bytes of a text constant. -/
def nm (s : String) : Name := s.toList.map Char.toNat

/-- `u8::to_ascii_lowercase` (std). -/
def lowerByte (b : Nat) : Nat := if 65 ≤ b ∧ b ≤ 90 then b + 32 else b

/-- `to_ascii_lowercase` of a byte string (std). -/
def lower (n : Name) : Name := n.map lowerByte

/-- `u8::to_ascii_uppercase` (std); `str::to_uppercase` (xt:115) agrees with it on the hex digits it is
applied to. -/
def upperByte (b : Nat) : Nat := if 97 ≤ b ∧ b ≤ 122 then b - 32 else b

/-! ## Calls -/

/-- The calls of the maintenance pallet, mm:149-262. -/
inductive MOp
  /-- `enable_maintenance_mode` -/
  | enable (on : Bool)
  /-- `block_account` -/
  | account (a : Acct) (blocked : Bool)
  /-- `block_evm_target` -/
  | evm (a : Acct) (blocked : Bool)
  /-- `block_call` -/
  | call (pallet fn : Name) (blocked : Bool)
  /-- `block_pallet` -/
  | pallet (pallet : Name) (blocked : Bool)
deriving DecidableEq

/-- A decoded V1 doughnut (external crate `doughnut_rs`): public keys of issuer and holder, who pays the
fees, validity window, the encoded topping of the domain "trn" if there is one, and the issuer's
signature. -/
structure Dn where
  issuer : Nat
  holder : Nat
  holderPays : Bool
  notBefore : Nat
  expiry : Nat
  topping : Option Nat
  sig : Nat
deriving DecidableEq

/-- A byte string that decodes to a V1 doughnut. `Doughnut::decode(&mut &payload[..])` (dn:596) reads from
the front and ignores what follows, so the bytes are the doughnut and an arbitrary tail. Payloads that do
not decode are refused everywhere before anything happens (dn:97-100, 299-302, 460-465, 522-526) and are
left out. -/
structure Payload where
  dn : Dn
  tail : List Nat
deriving DecidableEq

/-- A call made by EVM code while it runs: to a contract, or to a precompile standing for a pallet call.
`direct` precompiles call the pallet's function themselves (/repo/evm-precompiles/{dex,nft,sft,peg,
futurepass-registrar}/src/lib.rs and parts of marketplace); the others go through
`RuntimeHelper::try_dispatch` (erc20, erc721, erc1155, futurepass, parts of marketplace), which is an
ordinary filtered dispatch. -/
structure Sub where
  caller : Acct
  target : Acct
  precompile : Option (Name × Name)
  direct : Bool
deriving DecidableEq

/-- A runtime call. `ok` says whether the pallet accepts the call once it gets there; that decision is the
pallet's and is modelled elsewhere. -/
inductive Call
  /-- any call not listed below -/
  | other (pallet fn : Name) (ok : Bool)
  /-- `Staking::bond`; `staked` if the payee is `RewardDestination::Staked` -/
  | bond (staked ok : Bool)
  /-- `Balances::transfer` or, with `keep`, `transfer_keep_alive` -/
  | transfer (keep : Bool) (dest : Acct) (value : Nat) (ok : Bool)
  /-- `AssetsExt::transfer` -/
  | assetTransfer (id : Nat) (dest : Acct) (amount : Nat) (keep ok : Bool)
  /-- `Futurepass::create` -/
  | fpCreate (a : Acct) (ok : Bool)
  /-- `System::remark` -/
  | remark (bytes : List Nat)
  | maint (m : MOp)
  /-- `Doughnut::revoke_doughnut` -/
  | revokeDoughnut (p : Payload) (revoke : Bool)
  /-- `Doughnut::revoke_holder` -/
  | revokeHolder (h : Acct) (revoke : Bool)
  /-- `Doughnut::update_whitelisted_holders` -/
  | whitelist (h : Acct) (add : Bool)
  /-- `EVM::call`; `inner` is the target encoded in the input when `target` is the fee-proxy precompile;
  `subs` are the calls the EVM code makes -/
  | evmCall (src target inner : Acct) (subs : List Sub)
  /-- `Xrpl::transact` and `Doughnut::transact` inside another call; their arguments do not matter because
  both insist on an unsigned origin -/
  | xrplTransact
  | doughnutTransact
  /-- `Sudo::sudo` -/
  | sudoCall (c : Call)
  /-- `Sudo::sudo_as` -/
  | sudoAs (a : Acct) (c : Call)
  /-- `Futurepass::proxy_extrinsic` -/
  | proxy (fp : Acct) (c : Call)
  /-- `FeeProxy::call_with_fee_preferences`; `xrp` if the payment asset is XRP itself -/
  | feeProxy (xrp : Bool) (c : Call)
  /-- `Utility::batch`, or `batch_all` with `all`; longer batches nest to the right -/
  | batch (all : Bool) (c1 c2 : Call)
deriving DecidableEq

/-- `get_call_metadata` (generated): pallet name (rt:1392-1455) and call name. -/
def callName : Call → Name × Name
  | .other p f _ => (p, f)
  | .bond _ _ => (nm "Staking", nm "bond")
  | .transfer k _ _ _ => (nm "Balances", if k then nm "transfer_keep_alive" else nm "transfer")
  | .assetTransfer .. => (nm "AssetsExt", nm "transfer")
  | .fpCreate .. => (nm "Futurepass", nm "create")
  | .remark _ => (nm "System", nm "remark")
  | .maint (.enable _) => (nm "MaintenanceMode", nm "enable_maintenance_mode")
  | .maint (.account ..) => (nm "MaintenanceMode", nm "block_account")
  | .maint (.evm ..) => (nm "MaintenanceMode", nm "block_evm_target")
  | .maint (.call ..) => (nm "MaintenanceMode", nm "block_call")
  | .maint (.pallet ..) => (nm "MaintenanceMode", nm "block_pallet")
  | .revokeDoughnut .. => (nm "Doughnut", nm "revoke_doughnut")
  | .revokeHolder .. => (nm "Doughnut", nm "revoke_holder")
  | .whitelist .. => (nm "Doughnut", nm "update_whitelisted_holders")
  | .evmCall .. => (nm "EVM", nm "call")
  | .xrplTransact => (nm "Xrpl", nm "transact")
  | .doughnutTransact => (nm "Doughnut", nm "transact")
  | .sudoCall _ => (nm "Sudo", nm "sudo")
  | .sudoAs .. => (nm "Sudo", nm "sudo_as")
  | .proxy .. => (nm "Futurepass", nm "proxy_extrinsic")
  | .feeProxy .. => (nm "FeeProxy", nm "call_with_fee_preferences")
  | .batch all _ _ => (nm "Utility", if all then nm "batch_all" else nm "batch")

/-! ## XRPL messages -/

/-- xt:30-36 `ExtrinsicMemoData`. -/
structure MemoData where
  genesis : Nat
  nonce : Nat
  maxBlock : Nat
  tip : Nat
  callHash : Nat
deriving DecidableEq

/-- xt:90-104: a memo; `kind` is `none` if the type is not hex or not UTF-8, otherwise whether it is
"extrinsic"; `data` is `none` if the data does not parse (xt:151-186). -/
structure Memo where
  kind : Option Bool
  data : Option MemoData
deriving DecidableEq

/-- What the signature covers (xt:197-201, 247-265 and `TransactionCommon`): the public key as hex text, the
memos, and the account fields, which the pallet does not interpret. -/
structure SignedPart where
  keyHex : Name
  memos : List Memo
  rest : Nat
deriving DecidableEq

/-- A decoded `encoded_msg`: the signed part and fields the decoder drops (xt:108-117). -/
structure Blob where
  part : SignedPart
  ignored : Nat
deriving DecidableEq

/-- xt:55-59 `XrplPublicKey`. -/
inductive XKey
  | ed (b : List Nat)
  | ec (b : List Nat)
deriving DecidableEq

/-- An argument of a permission check (`PactType`, external crate `trn_pact`). Addresses and other byte
strings are one type there; here they are kept apart. -/
inductive Arg
  | num (n : Nat)
  | addr (a : Acct)
  | bytes (b : List Nat)
deriving DecidableEq

/-! ## Configuration and state -/

/-- Everything outside this code: cryptography, fees, constants. -/
structure Cfg where
  /-- is this byte string UTF-8 -/
  utf8 : Name → Bool
  /-- hash of block 0 -/
  genesis : Nat
  /-- the inclusion fee of a call, after refunds -/
  feeOf : Call → Nat
  /-- blake2-256 of an encoded call -/
  callHash : Call → Nat
  /-- account of an XRPL key -/
  xAcct : XKey → Option Acct
  /-- does the signature fit the message under the key -/
  xVerify : XKey → SignedPart → Nat → Bool
  /-- dn:583-590 `get_address` -/
  dAcct : Nat → Option Acct
  /-- the issuer's signature on a doughnut -/
  dVerify : Dn → Bool
  /-- the holder's signature on call, payload, nonce, genesis hash and tip, dn:121-139 -/
  hVerify : Nat → Call → Payload → Nat → Nat → Nat → Nat → Bool
  /-- keccak-256 of a payload -/
  keccak : Payload → Nat
  /-- does a topping decode -/
  toppingOk : Nat → Bool
  /-- `Topping::validate_module` -/
  permits : Nat → Name → Name → List Arg → Bool
  /-- address of the fee-proxy precompile -/
  feeProxyAddr : Acct

/-- Origin a call runs under. -/
inductive Origin
  | root
  | signed (a : Acct)
deriving DecidableEq

/-- How the transaction came in. -/
inductive Via
  | signed
  | ethereum
  | xrpl
  | doughnut
deriving DecidableEq

/-- Something that ran. -/
inductive Act
  /-- a call ran -/
  | call (c : Call)
  /-- EVM code at this address was entered -/
  | evm (target : Acct)
  /-- a precompile ran this pallet function; `direct` as in `Sub` -/
  | pre (pallet fn : Name) (direct : Bool)
deriving DecidableEq

/-- A log entry: what ran, as whom, how it came in, and (for the statements only) whether at that moment
the call was on the operators' block lists and maintenance mode was on. -/
structure Ran where
  via : Via
  origin : Origin
  act : Act
  paused : Bool
  maint : Bool
deriving DecidableEq

/-- The part of the chain state the entry points read or write. -/
structure St where
  block : Nat
  nonce : Acct → Nat
  /-- XRP available for fees -/
  funds : Acct → Nat
  /-- mm:82-109 `MaintenanceModeActive`, `BlockedAccounts`, `BlockedEVMAddresses`, `BlockedCalls`,
  `BlockedPallets` -/
  active : Bool
  blockedAcct : Acct → Bool
  blockedEvm : Acct → Bool
  blockedCall : Name × Name → Bool
  blockedPallet : Name → Bool
  /-- `Holders` of the futurepass pallet -/
  holder : Acct → Option Acct
  /-- owner of a futurepass, im:561-572 -/
  owner : Acct → Option Acct
  /-- `Proxy::exists(futurepass, delegate)` -/
  delegate : Acct → Acct → Bool
  /-- dn:365-382 `WhitelistedHolders`, `BlockedDoughnuts`, `BlockedHolders` -/
  white : Acct → Bool
  revoked : Nat → Bool
  revokedHolder : Acct → Acct → Bool
  sudoKey : Acct
  log : List Ran

/-! ## Maintenance pallet -/

/-- mm:270-287 `is_pallet_blockable`; the four pallets are set in rt:1345-1348. -/
def blockable (lowered : Name) : Bool :=
  lowered ≠ lower (nm "MaintenanceMode") && lowered ≠ lower (nm "Sudo") &&
  lowered ≠ lower (nm "Timestamp") && lowered ≠ lower (nm "ImOnline") &&
  lowered ≠ lower (nm "EthBridge")

/-- `BoundedVec::truncate_from` with `StringLimit` = 50 (rt:390, 1343). -/
def bounded (n : Name) : Name := n.take 50

/-- mm:310-333 `call_paused`, on names. -/
def pausedName (s : St) (p f : Name) : Bool :=
  if blockable (lower p) = false then false
  else s.blockedCall (bounded (lower p), bounded (lower f)) || s.blockedPallet (bounded (lower p))

/-- mm:310-333 `call_paused`. -/
def paused (s : St) (c : Call) : Bool := pausedName s (callName c).1 (callName c).2

/-- mm:337-349 `validate_evm_call`. -/
def evmAllowed (s : St) (signer target : Acct) : Bool :=
  if s.active = true then false
  else if s.blockedAcct signer = true then false
  else if s.blockedEvm target = true then false
  else true

/-- mm:377-403: the check on ordinary signed transactions. -/
def checkMaintenance (s : St) (who : Acct) (c : Call) : Except Err Unit :=
  if blockable (lower (callName c).1) = false then .ok ()
  else do
    ensure (s.active = false) "Custom1"
    ensure (s.blockedAcct who = false) "Custom2"

/-- mm:149-262: the calls of the maintenance pallet, for the root origin. -/
def maintOp (c : Cfg) (s : St) : MOp → Except Err St
  | .enable on => .ok { s with active := on }
  | .account a b => .ok { s with blockedAcct := upd s.blockedAcct a b }
  | .evm a b => .ok { s with blockedEvm := upd s.blockedEvm a b }
  | .call p f b => do
    ensure (p ≠ []) "InvalidPalletName"
    let p := bounded (lower p)
    ensure (c.utf8 p = true) "InvalidPalletName"
    ensure (blockable p = true) "CannotBlock"
    ensure (f ≠ []) "InvalidCallName"
    let f := bounded (lower f)
    ensure (c.utf8 f = true) "InvalidCallName"
    pure { s with blockedCall := upd s.blockedCall (p, f) b }
  | .pallet p b => do
    ensure (p ≠ []) "InvalidPalletName"
    let p := bounded (lower p)
    ensure (c.utf8 p = true) "InvalidPalletName"
    ensure (blockable p = true) "CannotBlock"
    pure { s with blockedPallet := upd s.blockedPallet p b }

/-! ## Filters and dispatch -/

/-- rt:240-256: the calls switched off for good, by name. -/
def disabledName (p f : Name) : Bool :=
  (p, f) = (nm "Assets", nm "create") || (p, f) = (nm "EthBridge", nm "submit_challenge") ||
  (p, f) = (nm "XRPLBridge", nm "submit_challenge") || (p, f) = (nm "Staking", nm "payout_stakers") ||
  (p, f) = (nm "Proxy", nm "add_proxy")

/-- rt:240-256: the calls switched off for good. -/
def disabled : Call → Bool
  | .bond staked _ => staked
  | c => disabledName (callName c).1 (callName c).2

/-- rt:229-259 `CallFilter`, applied by `dispatch` to every origin but root. -/
def admitted (s : St) (o : Origin) (c : Call) : Bool :=
  o = .root || (!paused s c && !disabled c)

/-- The log entry of something that runs now. -/
def ran (s : St) (v : Via) (o : Origin) (a : Act) (pausedNow : Bool) : St :=
  { s with log := { via := v, origin := o, act := a, paused := pausedNow, maint := s.active } :: s.log }

/-- A leaf call that runs: log it. -/
def leaf (s : St) (v : Via) (o : Origin) (c : Call) (ok : Bool) : Except Err St := do
  ensure (ok = true) "Pallet"
  pure (ran s v o (.call c) (paused s c))

/-- The calls EVM code makes. A precompile that goes through `try_dispatch` is subject to the call filter;
a direct one is not. Nothing checks the block list of EVM addresses here. -/
def runSubs (v : Via) : List Sub → St → Except Err St
  | [], s => .ok s
  | x :: l, s =>
    match x.precompile with
    | none => runSubs v l (ran s v (.signed x.caller) (.evm x.target) false)
    | some (p, f) => do
      ensure (x.direct = true ∨ (pausedName s p f = false ∧ disabledName p f = false)) "CallFiltered"
      runSubs v l
        (ran (ran s v (.signed x.caller) (.evm x.target) false) v (.signed x.caller) (.pre p f x.direct)
          (pausedName s p f))

/-- fx/runner.rs:269-330 `call`: the maintenance check on source and target, then the switch to the target
encoded in the input when the fee-proxy precompile is called. -/
def evmRun (c : Cfg) (s : St) (v : Via) (src target inner : Acct) (subs : List Sub) : Except Err St := do
  ensure (evmAllowed s src target = true) "WithdrawFailed"
  let t := if target = c.feeProxyAddr then inner else target
  runSubs v subs (ran s v (.signed src) (.evm t) false)

/-- dn:515-539 `revoke_doughnut`. -/
def revokeDoughnut (c : Cfg) (s : St) (who : Acct) (p : Payload) (revoke : Bool) : Except Err St := do
  let iss ← okOr (c.dAcct p.dn.issuer) "UnauthorizedSender"
  ensure (who = iss) "CallerNotIssuer"
  pure { s with revoked := upd s.revoked (c.keccak p) revoke }

/-- The signer of an origin; `ensure_signed` (dependency). -/
def signer : Origin → Except Err Acct
  | .signed a => .ok a
  | .root => .error "BadOrigin"

/-- `ensure_root` (dependency). -/
def ensureRoot (o : Origin) : Except Err Unit := ensure (o = .root) "BadOrigin"

/-- `dispatch_bypass_filter`: run a call under an origin; the calls nested in it are dispatched through the
filter except where the wrapper bypasses it. A failing call leaves no trace (calls run in a storage
layer). -/
def run (c : Cfg) (v : Via) : Call → Origin → St → Except Err St
  | .other p f ok, o, s => leaf s v o (.other p f ok) ok
  | .bond k ok, o, s => leaf s v o (.bond k ok) ok
  | .transfer k d x ok, o, s => do
    let _ ← signer o
    leaf s v o (.transfer k d x ok) ok
  | .assetTransfer i d x k ok, o, s => do
    let _ ← signer o
    leaf s v o (.assetTransfer i d x k ok) ok
  | .fpCreate a ok, o, s => do
    let _ ← signer o
    leaf s v o (.fpCreate a ok) ok
  | .remark b, o, s => leaf s v o (.remark b) true
  | .maint m, o, s => do
    ensureRoot o
    let s1 ← maintOp c s m
    pure (ran s1 v o (.call (.maint m)) (paused s (.maint m)))
  | .revokeDoughnut p r, o, s => do
    let who ← signer o
    let s1 ← revokeDoughnut c s who p r
    pure (ran s1 v o (.call (.revokeDoughnut p r)) (paused s (.revokeDoughnut p r)))
  -- dn:544-560
  | .revokeHolder h r, o, s => do
    let who ← signer o
    pure (ran { s with revokedHolder := upd s.revokedHolder who (upd (s.revokedHolder who) h r) } v o
      (.call (.revokeHolder h r)) (paused s (.revokeHolder h r)))
  -- dn:566-575
  | .whitelist h a, o, s => do
    ensureRoot o
    pure (ran { s with white := upd s.white h a } v o (.call (.whitelist h a)) (paused s (.whitelist h a)))
  -- pallet-evm `call` (dependency) with `FutureverseEnsureAddressSame`, im:470-486
  | .evmCall src t i subs, o, s => do
    let who ← signer o
    ensure (who = src) "BadOrigin"
    evmRun c s v src t i subs
  -- xr:442, dn:458 `ensure_none`
  | .xrplTransact, _, _ => .error "BadOrigin"
  | .doughnutTransact, _, _ => .error "BadOrigin"
  -- pallet-sudo (dependency): the result of the inner call is only an event
  | .sudoCall x, o, s => do
    let who ← signer o
    ensure (who = s.sudoKey) "RequireSudo"
    match run c v x .root s with
    | .ok s1 => (.ok s1 : Except Err St)
    | .error _ => .ok s
  | .sudoAs a x, o, s => do
    let who ← signer o
    ensure (who = s.sudoKey) "RequireSudo"
    match run c v x (.signed a) s with
    | .ok s1 => (.ok s1 : Except Err St)
    | .error _ => .ok s
  -- /repo/pallet/futurepass/src/lib.rs:483-512, im:544-552, 665-678; the filters of proxy types are in
  -- `Verif.Futurepass`; pallet-proxy (dependency) reports the inner result as an event
  | .proxy fp x, o, s => do
    let who ← signer o
    ensure (x ≠ .xrplTransact) "BlacklistedExtrinsic"
    ensure (pausedName s (nm "Proxy") (nm "proxy") = false) "CallFiltered"
    ensure (s.delegate fp who = true) "NotProxy"
    match (if admitted s (.signed fp) x = true then run c v x (.signed fp) s else .error "CallFiltered") with
    | .ok s1 => (.ok s1 : Except Err St)
    | .error _ => .ok s
  -- fx/lib.rs:105-133
  | .feeProxy xrp x, o, s => do
    let _ ← signer o
    ensure (xrp = false) "FeeTokenIsGasToken"
    ensure ((callName x) ≠ (nm "FeeProxy", nm "call_with_fee_preferences")) "NestedFeePreferenceCall"
    ensure (admitted s o x = true) "CallFiltered"
    run c v x o s
  -- pallet-utility (dependency): `batch_all` fails as a whole, `batch` stops at the first failure
  | .batch all x y, o, s =>
    match (if admitted s o x = true then run c v x o s else .error "CallFiltered") with
    | .error e => if all = true then .error e else .ok s
    | .ok s1 =>
      match (if admitted s1 o y = true then run c v y o s1 else .error "CallFiltered") with
      | .error e => if all = true then .error e else .ok s1
      | .ok s2 => .ok s2

/-- `dispatch`: the filter, then the call. -/
def dispatch (c : Cfg) (v : Via) (x : Call) (o : Origin) (s : St) : Except Err St := do
  ensure (admitted s o x = true) "CallFiltered"
  run c v x o s

/-- The dispatch of an included transaction: a failure only undoes the call. -/
def settle (r : Except Err St) (s : St) : St :=
  match r with
  | .ok s1 => s1
  | .error _ => s

/-! ## Fees and nonces -/

/-- fx/impls.rs:57-66, 101-107: the account charged for a call sent by `who`. -/
def feePayer (s : St) (who : Acct) : Call → Acct
  | .proxy fp _ => if s.delegate fp who = true then fp else who
  | .feeProxy _ (.proxy fp _) => if s.delegate fp who = true then fp else who
  | _ => who

/-- `ChargeTransactionPayment` (dependency), in XRP. -/
def charge (s : St) (payer : Acct) (amount : Nat) : Except Err St := do
  ensure (amount ≤ s.funds payer) "Payment"
  pure { s with funds := upd s.funds payer (s.funds payer - amount) }

/-- `CheckNonZeroSender` and `CheckNonce::pre_dispatch` (dependency). -/
def useNonce (s : St) (who : Acct) (n : Nat) : Except Err St := do
  ensure (s.nonce who = n) "BadNonce"
  pure { s with nonce := upd s.nonce who (s.nonce who + 1) }

/-! ## Signed extrinsics and Ethereum transactions -/

/-- An ordinary extrinsic whose signature by `who` has been checked: rt:1466-1476 `SignedExtra`, then
dispatch. -/
def signedTx (c : Cfg) (s : St) (who : Acct) (n tip : Nat) (x : Call) : Except Err St := do
  ensure (who ≠ 0) "BadSigner"
  let s1 ← useNonce s who n
  checkMaintenance s1 who x
  let s2 ← charge s1 (feePayer s1 who x) (c.feeOf x + tip)
  pure (settle (dispatch c .signed x (.signed who) s2) s2)

/-- An Ethereum transaction whose signature by `src` has been checked: rt:2243-2247, pallet-ethereum
(dependency) and the runner. If the runner refuses, nothing changes; if the code reverts, only the nonce
does (EVM fees are in `Verif.EvmMoney`). -/
def ethereumTx (c : Cfg) (s : St) (src : Acct) (n : Nat) (target inner : Acct) (subs : List Sub) :
    Except Err St := do
  ensure (pausedName s (nm "Ethereum") (nm "transact") = false) "CallFiltered"
  ensure (s.nonce src = n) "BadNonce"
  ensure (evmAllowed s src target = true) "WithdrawFailed"
  let s1 ← useNonce s src n
  pure (settle (evmRun c s1 .ethereum src target inner subs) s1)

/-! ## XRPL -/

/-- One hex digit. -/
def hexVal (b : Nat) : Option Nat :=
  if 48 ≤ b ∧ b ≤ 57 then some (b - 48)
  else if 97 ≤ b ∧ b ≤ 102 then some (b - 87)
  else if 65 ≤ b ∧ b ≤ 70 then some (b - 55)
  else none

/-- `hex::decode` (dependency). -/
def hexDecode : Name → Option (List Nat)
  | [] => some []
  | [_] => none
  | a :: b :: l =>
    match hexVal a, hexVal b, hexDecode l with
    | some x, some y, some r => some ((16 * x + y) :: r)
    | _, _, _ => none

/-- xt:110-133 `get_public_key`; the slice `[0..2]` panics on the empty text. -/
def publicKey (hex : Name) : Except Err XKey := do
  let b ← okOr (hexDecode hex) "BadKey"
  ensure (2 ≤ hex.length) "Panic"
  let pre := (hex.take 2).map upperByte
  if pre = nm "ED" then do
    ensure ((b.drop 1).length = 32) "BadKey"
    pure (.ed (b.drop 1))
  else if pre = nm "02" ∨ pre = nm "03" then do
    ensure (b.length = 33) "BadKey"
    pure (.ec b)
  else .error "BadKey"

/-- xt:136-140 `get_account`. -/
def xAccount (c : Cfg) (m : Blob) : Except Err Acct := do
  let k ← publicKey m.part.keyHex
  okOr (c.xAcct k) "BadKey"

/-- xt:147-191 `get_extrinsic_data`: the first memo of type "extrinsic". -/
def extrinsicData : List Memo → Except Err MemoData
  | [] => .error "NoMemo"
  | m :: l =>
    match m.kind with
    | none => .error "BadMemo"
    | some false => extrinsicData l
    | some true => okOr m.data "BadMemo"

/-- im:523-546 and im:1083-1107: is this a futurepass call, directly or inside the fee proxy. -/
def fpCall : Call → Bool
  | .proxy _ _ => true
  | .feeProxy _ (.proxy _ _) => true
  | _ => false

/-- xr:272-321 `validate_params`. -/
def xParams (c : Cfg) (s : St) (m : Blob) (sig : Nat) (x : Call) : Except Err MemoData := do
  let d ← extrinsicData m.part.memos
  ensure (d.genesis = c.genesis) "Genesis"
  ensure (c.callHash x = d.callHash) "HashMismatch"
  ensure (x ≠ .xrplTransact) "Nested"
  ensure (s.block ≤ d.maxBlock) "MaxBlock"
  let k ← publicKey m.part.keyHex
  ensure (c.xVerify k m.part sig = true) "BadSignature"
  pure d

/-- xr:436-487 `transact`, dispatched with no origin. -/
def xTransact (c : Cfg) (s : St) (m : Blob) (x : Call) : Except Err St := do
  ensure (pausedName s (nm "Xrpl") (nm "transact") = false) "CallFiltered"
  ensure (paused s x = false) "CallFiltered"
  let who ← xAccount c m
  dispatch c .xrpl x (.signed who) s

/-- xr:96-123 `check_self_contained` and xr:205-270 `apply_self_contained`. -/
def xrplTx (c : Cfg) (s : St) (m : Blob) (sig : Nat) (x : Call) : Except Err St := do
  let a ← xAccount c m
  let origin ← (if fpCall x = true then okOr (s.holder a) "Call" else pure a)
  let d ← xParams c s m sig x
  ensure (origin ≠ 0) "BadSigner"
  let s1 ← charge s (feePayer s origin x) (c.feeOf x + d.tip)
  let eoa ← (if fpCall x = true then okOr (s.owner origin) "BadProof" else pure origin)
  ensure (eoa ≠ 0) "BadProof"
  let s2 ← useNonce s1 eoa d.nonce
  pure (settle (xTransact c s2 m x) s2)

/-! ## Doughnuts -/

/-- im:936-956: the call the permissions are checked on. -/
def actual : Call → Call
  | .proxy _ x => x
  | .feeProxy _ (.proxy _ x) => x
  | .feeProxy _ x => x
  | x => x

/-- im:929-1059 `DoughnutCallValidator`. Amounts go through `as u64`. -/
def checkTopping (c : Cfg) (s : St) (t : Nat) (x : Call) : Except Err Unit := do
  ensure (paused s (actual x) = false) "CallFiltered"
  let p := (callName (actual x)).1
  let f := (callName (actual x)).2
  match actual x with
  | .transfer _ dest v _ =>
    ensure (c.permits t p f [.addr dest, .num (v % U64)] = true) "ToppingPermissionDenied"
  | .fpCreate a _ => ensure (c.permits t p f [.addr a] = true) "ToppingPermissionDenied"
  | .remark b => ensure (c.permits t p f [.bytes b] = true) "ToppingPermissionDenied"
  | .assetTransfer i dest v k _ =>
    ensure (c.permits t p f [.num i, .addr dest, .num (v % U64), .num (if k then 1 else 0)] = true)
      "ToppingPermissionDenied"
  | _ => .error "ToppingPermissionDenied"

/-- dn:449-510 `transact`, dispatched with no origin; the result of the inner call is only an event. -/
def dTransact (c : Cfg) (s : St) (p : Payload) (x : Call) : Except Err St := do
  ensure (pausedName s (nm "Doughnut") (nm "transact") = false) "CallFiltered"
  ensure (c.dVerify p.dn = true) "DoughnutVerifyFailed"
  let iss ← okOr (c.dAcct p.dn.issuer) "UnauthorizedSender"
  let hol ← okOr (c.dAcct p.dn.holder) "UnauthorizedSender"
  ensure (s.white hol = true) "HolderNotWhitelisted"
  ensure (s.revoked (c.keccak p) = false) "DoughnutRevoked"
  ensure (s.revokedHolder iss hol = false) "HolderRevoked"
  let t ← okOr p.dn.topping "TRNDomainNotfound"
  ensure (c.toppingOk t = true) "ToppingDecodeFailed"
  checkTopping c s t x
  pure (settle (dispatch c .doughnut x (.signed iss) s) s)

/-- dn:285-319 `validate_params`: the account that pays. -/
def dPayer (c : Cfg) (s : St) (p : Payload) (genesis : Nat) (x : Call) : Except Err Acct := do
  ensure (genesis = c.genesis) "Genesis"
  let a ← okOr (c.dAcct (if p.dn.holderPays then p.dn.holder else p.dn.issuer)) "UnauthorizedSender"
  if fpCall x = true then okOr (s.holder a) "NoFuturepass" else pure a

/-- dn:93-149 `check_self_contained` and dn:224-283 `apply_self_contained`. The window is compared with the
block number (dn:103). -/
def doughnutTx (c : Cfg) (s : St) (p : Payload) (n genesis tip sig : Nat) (x : Call) : Except Err St := do
  ensure (p.dn.notBefore ≤ s.block) "Premature"
  ensure (s.block < p.dn.expiry) "Expired"
  ensure (c.dVerify p.dn = true) "BadProof"
  let hol ← okOr (c.dAcct p.dn.holder) "BadSigner"
  ensure (c.hVerify p.dn.holder x p n genesis tip sig = true) "BadProof"
  let payer ← dPayer c s p genesis x
  ensure (hol ≠ 0) "BadSigner"
  let s1 ← useNonce s hol n
  let s2 ← charge s1 (feePayer s1 payer x) (c.feeOf x + tip)
  pure (settle (dTransact c s2 p x) s2)

/-! ## Histories -/

/-- What can happen: transactions, and changes made by code modelled elsewhere. -/
inductive Op
  | signed (who : Acct) (nonce tip : Nat) (x : Call)
  | ethereum (src : Acct) (nonce : Nat) (target inner : Acct) (subs : List Sub)
  | xrpl (m : Blob) (sig : Nat) (x : Call)
  | doughnut (p : Payload) (nonce genesis tip sig : Nat) (x : Call)
  | nextBlock
  /-- money comes or goes -/
  | setFunds (a : Acct) (x : Nat)
  /-- an account with no money left is removed; frame-system (dependency) forgets its nonce -/
  | reap (a : Acct)
  /-- a futurepass is created (`Verif.Futurepass.create`) -/
  | fpNew (a fp : Acct)
  /-- a futurepass changes hands (`Verif.Futurepass.transfer`) -/
  | fpMove (fp b : Acct)
  /-- a delegate other than the owner is added or removed -/
  | setDelegate (fp d : Acct) (b : Bool)
deriving DecidableEq

/-- One operation; an error means the operation is not part of the chain. -/
def step (c : Cfg) (s : St) : Op → Except Err St
  | .signed who n tip x => signedTx c s who n tip x
  | .ethereum src n t i l => ethereumTx c s src n t i l
  | .xrpl m sig x => xrplTx c s m sig x
  | .doughnut p n g tip sig x => doughnutTx c s p n g tip sig x
  | .nextBlock => .ok { s with block := s.block + 1 }
  | .setFunds a x => .ok { s with funds := upd s.funds a x }
  | .reap a => do
    ensure (s.funds a = 0) "Alive"
    pure { s with nonce := upd s.nonce a 0 }
  | .fpNew a fp => do
    ensure (s.holder a = none) "AccountAlreadyRegistered"
    ensure (s.owner fp = none) "Exists"
    pure { s with holder := upd s.holder a (some fp)
                  owner := upd s.owner fp (some a)
                  delegate := upd s.delegate fp (upd (s.delegate fp) a true) }
  | .fpMove fp b => do
    let a ← okOr (s.owner fp) "NotFuturepassOwner"
    ensure (s.holder b = none) "AlreadyOwnsFuturepass"
    pure { s with holder := upd (upd s.holder a none) b (some fp)
                  owner := upd s.owner fp (some b)
                  delegate := upd s.delegate fp (upd (fun _ => false) b true) }
  | .setDelegate fp d b => do
    ensure (s.owner fp ≠ some d) "OwnerCannotUnregister"
    pure { s with delegate := upd s.delegate fp (upd (s.delegate fp) d b) }

/-- Run a list of operations, skipping those that fail. -/
def exec (c : Cfg) (s : St) : List Op → St
  | [] => s
  | o :: l =>
    match step c s o with
    | .ok s1 => exec c s1 l
    | .error _ => exec c s l

/-- The chain at genesis. -/
def init (sudoKey : Acct) : St where
  block := 1
  nonce := fun _ => 0
  funds := fun _ => 0
  active := false
  blockedAcct := fun _ => false
  blockedEvm := fun _ => false
  blockedCall := fun _ => false
  blockedPallet := fun _ => false
  holder := fun _ => none
  owner := fun _ => none
  delegate := fun _ _ => false
  white := fun _ => false
  revoked := fun _ => false
  revokedHolder := fun _ _ => false
  sudoKey := sudoKey
  log := []

/-- States the chain can be in. -/
inductive Reach (c : Cfg) (k : Acct) : St → Prop
  | init : Reach c k (init k)
  | step {s s1 : St} {op : Op} : Reach c k s → Entry.step c s op = .ok s1 → Reach c k s1

end Verif.Entry
