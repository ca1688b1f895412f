import Verif.Ledger

/-!
# Which key a node signs bridge requests with

/repo/ethy-gadget/src/keystore.rs and worker.rs:189-313: the choice of the key, the votes that are made with it, and how the
node learns the validators. Blocks are handled in order and each once (`Verif.Gossip.Finality`). What becomes of a vote is
`Verif.Witness` and `Verif.Gossip`.
-/

namespace Verif.SignKeys

/-- primitives/src/ethy.rs `ValidatorSet`, without the threshold. -/
structure VSet where
  id : Nat
  keys : List Nat
deriving DecidableEq

/-- worker.rs:198 `ProofRequest`. -/
structure Req where
  event : Nat
  /-- the request is for the XRP Ledger -/
  xrpl : Bool
  data : List Nat
deriving DecidableEq

/-- A finalised block as the worker sees it. -/
structure Block where
  /-- the header carries a log of a change of validators (`find_authorities_change`) -/
  announces : Bool
  /-- the answer of the runtime api `validator_set` at this block -/
  chain : VSet
  /-- whether the runtime api answers -/
  answers : Bool
  /-- the keys of type `ETHY_KEY_TYPE` in the node's keystore when the block is handled; `none` if there is no keystore -/
  store : Option (List Nat)
  reqs : List Req

/-- worker.rs:220-228 `Witness`; the signature of `k` over a digest is the pair of both. -/
structure Vote where
  event : Nat
  setId : Nat
  key : Nat
  digest : List Nat
  signature : Nat × List Nat
deriving DecidableEq

/-- types.rs:54-68 `data_to_digest`; `multi` is `digest_for_multi_signing_pre`. -/
def digest (multi : List Nat → Nat → List Nat) (r : Req) (k : Nat) : Option (List Nat) :=
  if r.xrpl = true then some (multi r.data k) else if r.data.length = 32 then some r.data else none

/-- keystore.rs:40-50 `authority_id`. -/
def authorityId (store : Option (List Nat)) (keys : List Nat) : Option Nat :=
  match store with
  | none => none
  | some held => keys.find? (fun k => decide (k ∈ held))

/-- keystore.rs:55-71 `sign_prehashed`. -/
def sign (store : Option (List Nat)) (k : Nat) (d : List Nat) : Option (Nat × List Nat) :=
  match store with
  | none => none
  | some held => if k ∈ held then some (k, d) else none

/-- worker.rs:201-229: the vote on one request. -/
def vote (multi : List Nat → Nat → List Nat) (store : Option (List Nat)) (v : VSet) (k : Nat) (r : Req) : Option Vote :=
  match digest multi r k with
  | none => none
  | some d => match sign store k d with
    | none => none
    | some s => some ⟨r.event, v.id, k, d, s⟩

/-- worker.rs:273-299: the validators the node goes by. -/
def learn (v : VSet) (b : Block) : VSet :=
  if b.announces = true ∨ v.keys = [] then
    if b.answers = true then
      if b.chain.id ≠ v.id ∨ (b.chain.id = 0 ∧ v.keys = []) then b.chain else v
    else v
  else v

/-- worker.rs:301-310 and 189-238: the votes on the requests of a block. -/
def votes (multi : List Nat → Nat → List Nat) (v : VSet) (b : Block) : List Vote :=
  match authorityId b.store v.keys with
  | none => []
  | some k => b.reqs.filterMap (vote multi b.store v k)

/-- worker.rs:132: a node just started. -/
def start : VSet := ⟨0, []⟩

/-- The votes of a node that went by the validators `v` and handles the blocks, block by block. -/
def run (multi : List Nat → Nat → List Nat) (v : VSet) : List Block → List (List Vote)
  | [] => []
  | b :: bs => votes multi (learn v b) b :: run multi (learn v b) bs

end Verif.SignKeys
