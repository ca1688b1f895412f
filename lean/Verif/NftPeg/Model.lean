import Verif.Nft.Inv

/-!
# Model of the ERC-721 bridge

/repo/pallet/nft-peg/src/{lib,types}.rs, on top of the model of the NFT pallet. ABI encoding and decoding are
not modelled: an event is given by the values its data decodes to. Collection names, metadata and events are
not modelled. An event of the bridge is not transactional: what was written before an error stays. Extrinsics
are transactional.

The Ethereum contract is part of the world the pallet runs in: it takes tokens into custody when it emits a
deposit event and gives them out when a withdrawal message is delivered to it.
-/

namespace Verif.NftPeg

/-- Constants of `Config` (/repo/pallet/nft-peg/src/lib.rs:53-66). -/
structure Cfg where
  /-- constants of the NFT pallet -/
  nft : Nft.Cfg
  /-- `MaxAddresses` -/
  maxAddresses : Nat
  /-- `MaxTokensPerMint` -/
  maxPerMint : Nat
  /-- `MaxCollectionsPerWithdraw` -/
  maxColls : Nat
  /-- `MaxSerialsPerWithdraw` -/
  maxSerials : Nat

/-- types.rs:36-44 `BlockedTokenInfo`. -/
structure Blocked where
  coll : Nat
  dest : Acct
  serials : List Nat
deriving DecidableEq

/-- lib.rs:438-446: a withdrawal message, for the contract: token addresses with token ids, and the receiver on
Ethereum. -/
structure Msg where
  contract : Nat
  groups : List (Nat × List Nat)
  dest : Nat
deriving DecidableEq

/-- lib.rs:68-90: the storage of the pallet, with that of the NFT pallet. -/
structure St where
  nft : Nft.St
  /-- `ContractAddress` -/
  contract : Nat
  /-- `EthToRootNft` -/
  toRoot : Nat → Option Nat
  /-- `RootNftToErc721` -/
  toEth : Nat → Option Nat
  /-- `BlockedTokens` -/
  blocked : Nat → Option Blocked
  /-- `NextBlockedMintId` -/
  nextBlocked : Nat

/-- What the data of an event decodes to. -/
inductive Event where
  /-- fewer than 32 bytes -/
  | short
  /-- prefix 1; `none` if the rest does not decode. Token ids are 256-bit numbers. -/
  | deposit (body : Option (List Nat × List (List Nat) × Acct))
  /-- prefix 2 -/
  | stateSync
  /-- any other prefix -/
  | other

/-- lib.rs:243-247: `saturated_into` a `u32`. -/
def serialOf (id : Nat) : Nat := min id (U32 - 1)

/-- lib.rs:201-269: the checks on a decoded deposit; types.rs:52-66 `GroupedTokenInfo::new`. -/
def decode (c : Cfg) (addrs : List Nat) (ids : List (List Nat)) : Except Err (List (Nat × List Nat)) := do
  ensure (addrs.length ≤ c.maxAddresses) "InvalidAbiEncoding"
  ensure (∀ l ∈ ids, l.length ≤ c.maxPerMint) "ExceedsMaxTokens"
  ensure (ids.length ≤ c.maxAddresses) "ExceedsMaxAddresses"
  ensure (addrs.length = ids.length) "TokenListLengthMismatch"
  pure (addrs.zip (ids.map (fun l => l.map serialOf)))

/-- lib.rs:300-335: the collection for a token address, created at the first deposit. -/
def collFor (c : Cfg) (s : St) (addr : Nat) (dest : Acct) : Except Err (St × Nat) :=
  match s.toRoot addr with
  | some id => .ok (s, id)
  | none => do
    let id ← Nft.nextUuid c.nft s.nft
    let n ← Nft.doCreate c.nft s.nft c.nft.palletAcct 0 none (some dest) none .ethereum false
    pure ({ s with
      nft := n
      toRoot := upd s.toRoot addr (some id)
      toEth := upd s.toEth id (some addr) }, id)

/-- lib.rs:346-373: tokens that could not be minted are recorded for the receiver. The counter is a `u32`
incremented without a check. -/
def block (c : Cfg) (s : St) (id : Nat) (dest : Acct) (ns : List Nat) : St :=
  if ns.length ≤ c.maxSerials then { s with
    blocked := upd s.blocked s.nextBlocked (some ⟨id, dest, ns⟩)
    nextBlocked := (s.nextBlocked + 1) % U32 }
  else s

/-- lib.rs:296-389: one round of the loop of `do_deposit`. What is written stays, also when an error ends the
deposit. -/
def depositGroup (c : Cfg) (s : St) (dest : Acct) (g : Nat × List Nat) : St × Option Err :=
  match collFor c s g.1 dest with
  | .error e => (s, some e)
  | .ok (s1, id) =>
    match Nft.bridgedMint c.nft s1.nft id dest g.2 with
    | .ok n => ({ s1 with nft := n }, none)
    | .error e => (block c s1 id dest g.2, some e)

/-- lib.rs:290-394 `do_deposit`. -/
def doDeposit (c : Cfg) (dest : Acct) : St → List (Nat × List Nat) → St × Option Err
  | s, [] => (s, none)
  | s, g :: gs =>
    match depositGroup c s dest g with
    | (s1, none) => doDeposit c dest s1 gs
    | r => r

/-- lib.rs:496-519 `on_event`. Slicing too short a data panics. -/
def onEvent (c : Cfg) (s : St) : Event → St × Option Err
  | .short => (s, some "Panic")
  | .deposit none => (s, some "InvalidAbiEncoding")
  | .deposit (some (addrs, ids, dest)) =>
    match decode c addrs ids with
    | .error e => (s, some e)
    | .ok gs => doDeposit c dest s gs
  | .stateSync => (s, some "StateSyncDisabled")
  | .other => (s, some "InvalidAbiPrefix")

/-- lib.rs:428-431: burn the tokens of one collection. -/
def burnAll (who : Acct) (id : Nat) : Nft.St → List Nat → Except Err Nft.St
  | s, [] => .ok s
  | s, n :: ns => do
    let s1 ← Nft.doBurn s who id n
    burnAll who id s1 ns

/-- lib.rs:415-427: take the serial numbers of a blocked deposit, and forget it. -/
def takeBlocked (s : St) (b : Nat) : Except Err (St × List Nat) := do
  let r ← okOr (s.blocked b) "NoBlockedTokensFound"
  pure ({ s with blocked := upd s.blocked b none }, r.serials)

/-- lib.rs:402-437: one round of the loop of `do_withdrawal`. -/
def withdrawColl (s : St) (who : Acct) (b : Option Nat) (id : Nat) (ns : List Nat) :
    Except Err (St × Nat × List Nat) := do
  let k ← okOr (s.nft.coll id) "NoCollectionFound"
  ensure (k.origin = .ethereum) "NoPermissionToBridge"
  let (s1, out) ← match b with
    | some b => takeBlocked s b
    | none => (burnAll who id s.nft ns).map (fun n => ({ s with nft := n }, ns))
  let a ← okOr (s1.toEth id) "NoMappedTokenExists"
  pure (s1, a, out)

/-- lib.rs:410-437: the loop of `do_withdrawal`. -/
def withdrawLoop (who : Acct) (b : Option Nat) : St → List (Nat × List Nat) → Except Err (St × List (Nat × List Nat))
  | s, [] => .ok (s, [])
  | s, (id, ns) :: rest => do
    let (s1, g) ← withdrawColl s who b id ns
    let (s2, gs) ← withdrawLoop who b s1 rest
    pure (s2, g :: gs)

/-- lib.rs:397-465 `do_withdrawal`. `ok`: the bridge accepts the message. -/
def doWithdrawal (s : St) (who : Acct) (colls : List Nat) (serials : List (List Nat)) (dest : Nat) (b : Option Nat)
    (ok : Bool) : Except Err (St × Msg) := do
  ensure (colls.length = serials.length) "TokenListLengthMismatch"
  let (s1, gs) ← withdrawLoop who b s (colls.zip serials)
  ensure (ok = true) "the bridge refuses the message"
  pure (s1, ⟨s1.contract, gs, dest⟩)

/-- lib.rs:163-178 `withdraw`. The arguments are bounded vectors. -/
def withdraw (c : Cfg) (s : St) (who : Acct) (colls : List Nat) (serials : List (List Nat)) (dest : Nat) (ok : Bool) :
    Except Err (St × Msg) := do
  ensure (colls.length ≤ c.maxColls ∧ serials.length ≤ c.maxColls ∧ ∀ l ∈ serials, l.length ≤ c.maxSerials)
    "decoding of the call"
  doWithdrawal s who colls serials dest none ok

/-- lib.rs:183-193 `reclaim_blocked_nfts`, 467-486 `do_reclaim_blocked_nfts`. -/
def reclaim (s : St) (who : Acct) (b : Nat) (dest : Nat) (ok : Bool) : Except Err (St × Msg) := do
  let r ← okOr (s.blocked b) "NoBlockedTokensFound"
  ensure (r.dest = who) "NotBlockedTokenDestination"
  doWithdrawal s who [r.coll] [r.serials] dest (some b) ok

/-- The pallet and the Ethereum contract. -/
structure World where
  st : St
  /-- the contract holds the token with this id of the ERC-721 contract with this address -/
  custody : Nat → Nat → Bool
  /-- withdrawal messages that are not delivered yet -/
  pending : List Msg

/-- The tokens of a list of groups, as pairs of token address and token id. -/
def toks (gs : List (Nat × List Nat)) : List (Nat × Nat) := gs.flatMap (fun g => g.2.map (fun n => (g.1, n)))

/-- The tokens a deposit names. -/
def Event.toks : Event → List (Nat × Nat)
  | .deposit (some (addrs, ids, _)) => NftPeg.toks (addrs.zip ids)
  | _ => []

/-- The calls (/repo/pallet/nft-peg/src/lib.rs:150-194), events of the bridge and what happens on Ethereum. -/
inductive Op where
  /-- the contract takes tokens and emits an event -/
  | deposit (e : Event)
  | withdraw (who : Acct) (colls : List Nat) (serials : List (List Nat)) (dest : Nat) (ok : Bool)
  | reclaim (who : Acct) (b : Nat) (dest : Nat) (ok : Bool)
  | setContract (a : Nat)
  /-- an operation of the NFT pallet -/
  | nft (op : Nft.Op)
  /-- a message is delivered to Ethereum -/
  | deliver (i : Nat)

/-- Tokens move into or out of custody. -/
def setCustody (f : Nat → Nat → Bool) (l : List (Nat × Nat)) (v : Bool) : Nat → Nat → Bool :=
  fun a n => if (a, n) ∈ l then v else f a n

/-- One step of the world. -/
def step (c : Cfg) (w : World) : Op → Except Err World
  | .deposit e => .ok { w with
      st := (onEvent c w.st e).1
      custody := setCustody w.custody e.toks true }
  | .withdraw who colls serials dest ok => do
      let (s1, m) ← withdraw c w.st who colls serials dest ok
      pure { w with
        st := s1
        pending := w.pending ++ [m] }
  | .reclaim who b dest ok => do
      let (s1, m) ← reclaim w.st who b dest ok
      pure { w with
        st := s1
        pending := w.pending ++ [m] }
  | .setContract a => .ok { w with st := { w.st with contract := a } }
  | .nft op => do
      let n ← Nft.step c.nft w.st.nft op
      pure { w with st := { w.st with nft := n } }
  | .deliver i => do
      let m ← okOr w.pending[i]? "no such message"
      pure { w with
        custody := setCustody w.custody (toks m.groups) false
        pending := w.pending.eraseIdx i }

/-- What the environment guarantees. A deposit takes each token once, and only tokens the contract does not
hold. Other bridges create no Ethereum collections and mint only into XRPL collections. -/
def Env (w : World) : Op → Prop
  | .deposit e => e.toks.Nodup ∧ ∀ p ∈ e.toks, w.custody p.1 p.2 = false
  | .nft (.createBridged _ g _) => g = .xrpl
  | .nft (.bridgedMint id _ _) => ∀ k, w.st.nft.coll id = some k → k.origin = .xrpl
  | _ => True

/-- As `Env`, and the counter of blocked deposits does not wrap round. -/
def NoWrap (w : World) (op : Op) : Prop := Env w op ∧ w.st.nextBlocked + 1 < U32

/-- The world before the first deposit. -/
structure Genesis (w : World) : Prop where
  nft : Nft.Genesis w.st.nft
  toRoot : ∀ a, w.st.toRoot a = none
  toEth : ∀ i, w.st.toEth i = none
  blocked : ∀ i, w.st.blocked i = none
  custody : ∀ a n, w.custody a n = false
  pending : w.pending = []

/-- What can be reached from the start by these operations; an operation that fails changes nothing.
Histories have no counterpart in the code. -/
inductive Reach (c : Cfg) (G : World → Op → Prop) : World → Prop where
  | init {w : World} : Genesis w → Reach c G w
  | step {w w' : World} {op : Op} : Reach c G w → G w op → step c w op = .ok w' → Reach c G w'

end Verif.NftPeg
