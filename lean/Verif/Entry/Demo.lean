import Verif.Entry.Model

/-!
# A concrete configuration and concrete histories, used in examples and counterexamples
-/

namespace Verif.Entry.Demo

/-- Hash used in the examples. -/
def hash : Call → Nat
  | .remark b => 100 + b.length
  | .transfer _ d v _ => 1000 * d + v
  | .proxy fp _ => 50 + fp
  | _ => 0

/-- Permission check used in the examples: every number is at most the topping's limit. -/
def within (limit : Nat) : List Arg → Bool
  | [] => true
  | .num n :: l => decide (n ≤ limit) && within limit l
  | _ :: l => within limit l

/-- Fees of one drop; signature 42 is right for every XRPL message, 5 for every doughnut and 9 for every
holder. -/
def cfg : Cfg where
  utf8 := fun _ => true
  genesis := 7
  feeOf := fun _ => 1
  callHash := hash
  xAcct := fun k => match k with
    | .ed _ => none
    | .ec b => some (10 + b.getLastD 0)
  xVerify := fun _ _ s => s == 42
  dAcct := fun k => some k
  dVerify := fun d => d.sig == 5
  hVerify := fun _ _ _ _ _ _ s => s == 9
  keccak := fun p => 1000 * p.tail.length + p.dn.issuer
  toppingOk := fun _ => true
  permits := fun t _ _ l => within t l
  feeProxyAddr := 1211

/-- A compressed public key as hex text: 02 00 … 00 0d with last byte `d`, so account `10 + d`. -/
def keyHex (d : Nat) : Name := nm "02" ++ List.replicate 63 48 ++ [48 + d]

/-- A signed message with one memo. -/
def msg (d nonce maxBlock tip hash : Nat) : Blob where
  part :=
    { keyHex := keyHex d
      memos := [{ kind := some true
                  data := some { genesis := 7, nonce := nonce, maxBlock := maxBlock, tip := tip,
                                 callHash := hash } }]
      rest := 0 }
  ignored := 0

/-- Issuer 20, holder 21, limit 1000, valid in blocks 0 to 99; the issuer pays. -/
def nut : Dn where
  issuer := 20
  holder := 21
  holderPays := false
  notBefore := 0
  expiry := 100
  topping := some 1000
  sig := 5

/-- The sudo key switches something. -/
def sudoOp (n : Nat) (m : MOp) : Op := .signed 1 n 0 (.sudoCall (.maint m))

/-- Money for the sudo key (1) and some users. -/
def funded : List Op :=
  [.setFunds 1 100, .setFunds 13 100, .setFunds 20 100, .setFunds 21 100, .setFunds 30 100]

/-- Everybody has money. -/
def s0 : St := exec cfg (init 1) funded

/-- Maintenance mode is on. -/
def sMaint : St := exec cfg s0 [sudoOp 0 (.enable true)]

/-- The pallet Dex is blocked, written in capitals. -/
def sDex : St := exec cfg s0 [sudoOp 0 (.pallet (nm "DEX") true)]

/-- Holder 21 is whitelisted. -/
def sNut : St := exec cfg s0 [.signed 1 0 0 (.sudoCall (.whitelist 21 true))]

theorem reach_exec {c : Cfg} {k : Acct} {l : List Op} : ∀ {s : St}, Reach c k s → Reach c k (exec c s l) := by
  induction l with
  | nil => intro s h; exact h
  | cons o l ih =>
    intro s h
    unfold exec
    split
    · rename_i s1 h1; exact ih (.step h h1)
    · exact ih h

theorem reach_s0 : Reach cfg 1 s0 := reach_exec .init
theorem reach_sMaint : Reach cfg 1 sMaint := reach_exec reach_s0
theorem reach_sDex : Reach cfg 1 sDex := reach_exec reach_s0
theorem reach_sNut : Reach cfg 1 sNut := reach_exec reach_s0

end Verif.Entry.Demo
