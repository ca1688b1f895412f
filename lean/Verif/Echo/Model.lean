import Verif.Abi.Read

/-!
# Model of the echo pallet

/repo/pallet/echo/src/lib.rs. Accounts and Ethereum addresses are 160-bit numbers. The bridge is outside: each operation
carries its answer, the id of the accepted message or `none` if it refuses. `ethabi::encode` and `ethabi::decode` come
from a library that is not in the repository; for the three static types used here they are modelled by the ABI
specification: three words, of which decoding reads the first 96 bytes, and of an address the last 20 bytes of its word.
An event of the bridge is not transactional: what was told before an error stays.
-/

namespace Verif.Echo

open Verif.Abi (Byte word ofBe be)

/-- lib.rs:76-85 `Event`. -/
inductive Said where
  /-- `PingSent` -/
  | pingSent (session source dest proof : Nat)
  /-- `PongReceived` -/
  | pongReceived (session source : Nat) (data : List Byte)
  /-- `PingReceived` -/
  | pingReceived (session source : Nat) (data : List Byte)
  /-- `PongSent` -/
  | pongSent (session source dest proof : Nat)
deriving DecidableEq

/-- A message the bridge accepted: source, destination, data, and the id it gave. -/
structure Msg where
  source : Nat
  dest : Nat
  data : List Byte
  proof : Nat
deriving DecidableEq

/-- /repo/pallet/echo/src/lib.rs:75-76: the storage of the pallet, and what it sent. -/
structure St where
  /-- `NextSessionId` -/
  next : Nat
  /-- messages the bridge accepted from this pallet, in order -/
  sent : List Msg

/-- `ethabi::encode` of two numbers and an address. -/
def encode (kind session dest : Nat) : List Byte := word kind ++ word session ++ word dest

/-- `ethabi::decode` of two numbers and an address. -/
def decode (data : List Byte) : Option (Nat × Nat × Nat) :=
  if data.length < 96 then none
  else some (ofBe (data.take 32), ofBe ((data.drop 32).take 32), ofBe ((data.drop 76).take 20))

/-- lib.rs:99-132 `ping`. -/
def ping (s : St) (who dest : Nat) (bridge : Option Nat) : Except Err (St × List Said) := do
  ensure (s.next + 1 < U64) "NoAvailableIds"
  let id ← okOr bridge "the bridge refuses the message"
  pure ({ s with
    next := s.next + 1
    sent := s.sent ++ [⟨who, dest, encode 0 s.next dest, id⟩] }, [.pingSent s.next who dest id])

/-- lib.rs:147-214 `on_event`, with the events. Numbers are cut with `saturated_into`. -/
def onEvent (s : St) (source : Nat) (data : List Byte) (bridge : Option Nat) : (St × List Said) × Option Err :=
  match decode data with
  | none => ((s, []), some "InvalidAbiEncoding")
  | some (k, n, dest) =>
    let kind := min k 255
    let session := min n (U64 - 1)
    if kind = 0 then ((s, [.pongReceived session source data]), none)
    else if kind = 1 then
      match bridge with
      | none => ((s, [.pingReceived session source data]), some "the bridge refuses the message")
      | some id => (({ s with sent := s.sent ++ [⟨source, dest, encode 1 session dest, id⟩] },
          [.pingReceived session source data, .pongSent session source dest id]), none)
    else ((s, []), some "InvalidParameter")

/-- /repo/pallet/echo/src/lib.rs:101-137: the calls, and an event of the bridge. -/
inductive Op where
  | ping (who dest : Nat) (bridge : Option Nat)
  /-- a message from Ethereum: any contract may send one, lib.rs:141-145 `verify_source` -/
  | event (source : Nat) (data : List Byte) (bridge : Option Nat)

/-- The state after an operation, and the events of it. A call that fails changes nothing. -/
def step (s : St) : Op → St × List Said
  | .ping who dest bridge =>
    match ping s who dest bridge with
    | .ok r => r
    | .error _ => (s, [])
  | .event source data bridge => (onEvent s source data bridge).1

/-- A history; each operation is `step`. No counterpart in the code. -/
def exec (s : St) : List Op → St
  | [] => s
  | op :: ops => exec (step s op).1 ops

/-- The events of a history. -/
def story (s : St) : List Op → List Said
  | [] => []
  | op :: ops => (step s op).2 ++ story (step s op).1 ops

end Verif.Echo
