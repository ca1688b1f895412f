import Verif.Ledger

/-!
# Holds of the assets extension pallet

Models `/repo/pallet/assets-ext/src/lib.rs`. Per asset and account there is a list of (pallet id, amount)
sorted by pallet id; the money is kept in the account of the pallet.
-/

namespace Verif.Holds

/-- Entries of one (asset, account) pair: pallet id (its 8 bytes read as a number) and amount.
(/repo/pallet/assets-ext/src/lib.rs:127-136 `Holds`). -/
abbrev Entries := List (Nat × Nat)

/-- Runtime constants: the account holding the money (`PalletId.into_account_truncating`) and the maximum
number of entries (/repo/pallet/assets-ext/src/lib.rs:112-123). -/
structure Cfg where
  pot : Acct
  maxHolds : Nat

/-- Storage. -/
structure St where
  ledger : Ledger
  holds : AssetId → Acct → Entries

/-- /repo/pallet/assets-ext/src/lib.rs:328-334 `hold_balance`, on one list: the first entry of the pallet. -/
def holdOf : Entries → Nat → Nat
  | [], _ => 0
  | e :: l, p => if e.1 = p then e.2 else holdOf l p

/-- `binary_search_by_key(..)` finds an entry (lib.rs:563, 604, 650). Simplification: a linear search; on the
sorted lists that occur (`Props.C35_sorted`) both find the same entry. -/
def has (l : Entries) (p : Nat) : Bool := l.any (fun e => e.1 == p)

/-- `holds[index].1 = v` (lib.rs:568, 611, 658). -/
def setAt (l : Entries) (p v : Nat) : Entries := l.map (fun e => if e.1 = p then (p, v) else e)

/-- `holds.try_insert(index, ..)` at the place reported by the search (lib.rs:571-573). -/
def insertSorted (l : Entries) (p v : Nat) : Entries :=
  match l with
  | [] => [(p, v)]
  | e :: l => if e.1 < p then e :: insertSorted l p v else (p, v) :: e :: l

/-- The list after adding (lib.rs:562-575). -/
def increase (max : Nat) (l : Entries) (p amt : Nat) : Except Err Entries :=
  if has l p then do
    ensure (holdOf l p + amt < U128) "Overflow"
    pure (setAt l p (holdOf l p + amt))
  else do
    ensure (l.length < max) "MaxHolds"
    pure (insertSorted l p amt)

/-- The list after taking (lib.rs:603-612, 649-659). -/
def decrease (l : Entries) (p amt : Nat) : Except Err Entries := do
  ensure (has l p = true) "BalanceLow"
  ensure (amt ≤ holdOf l p) "BalanceLow"
  pure (if holdOf l p - amt = 0 then l.filter (fun e => decide (e.1 ≠ p)) else setAt l p (holdOf l p - amt))

/-- Write the list of one (asset, account) pair. -/
def setHolds (s : St) (L : Ledger) (a : AssetId) (w : Acct) (l : Entries) : St :=
  { ledger := L, holds := upd s.holds a (upd (s.holds a) w l) }

/-- lib.rs:556-594 `place_hold`. -/
def place (c : Cfg) (s : St) (p : Nat) (w : Acct) (a : AssetId) (amt : Nat) : Except Err St := do
  let l ← increase c.maxHolds (s.holds a w) p amt
  let L ← s.ledger.transfer a w c.pot amt
  pure (setHolds s L a w l)

/-- lib.rs:597-639 `release_hold`. -/
def release (c : Cfg) (s : St) (p : Nat) (w : Acct) (a : AssetId) (amt : Nat) : Except Err St := do
  let l ← decrease (s.holds a w) p amt
  let L ← s.ledger.transfer a c.pot w amt
  pure (setHolds s L a w l)

/-- `iter().map(|x| x.1).sum::<Balance>()`, which wraps in the release profile. -/
def total (xs : List (Acct × Nat)) : Nat := (xs.map Prod.snd).sum % U128

/-- The loop of lib.rs:531-539: zero amounts are skipped. -/
def payAll (L : Ledger) (a : AssetId) (src : Acct) : List (Acct × Nat) → Except Err Ledger
  | [] => pure L
  | x :: xs =>
    if x.2 = 0 then payAll L a src xs
    else do
      let L' ← L.transfer a src x.1 x.2
      payAll L' a src xs

/-- lib.rs:516-547 `split_transfer`. -/
def splitTransfer (L : Ledger) (a : AssetId) (src : Acct) (xs : List (Acct × Nat)) : Except Err Ledger := do
  ensure (total xs ≤ L.bal a src) "BalanceLow"
  payAll L a src xs

/-- lib.rs:642-679 `spend_hold`. -/
def spend (c : Cfg) (s : St) (p : Nat) (w : Acct) (a : AssetId) (xs : List (Acct × Nat)) : Except Err St := do
  let l ← decrease (s.holds a w) p (total xs)
  let L ← splitTransfer s.ledger a c.pot xs
  pure (setHolds s L a w l)

/-- Calls of other pallets on holds and movements of money. -/
inductive Op where
  | place (p : Nat) (w : Acct) (a : AssetId) (amt : Nat)
  | release (p : Nat) (w : Acct) (a : AssetId) (amt : Nat)
  | spend (p : Nat) (w : Acct) (a : AssetId) (xs : List (Acct × Nat))
  | split (a : AssetId) (src : Acct) (xs : List (Acct × Nat))
  | transfer (a : AssetId) (src dst : Acct) (x : Nat)
  | mint (a : AssetId) (dst : Acct) (x : Nat)
  | burn (a : AssetId) (src : Acct) (x : Nat)

/-- One call; on error nothing changes (all callers are transactional). -/
def step (c : Cfg) (s : St) : Op → Except Err St
  | .place p w a amt => place c s p w a amt
  | .release p w a amt => release c s p w a amt
  | .spend p w a xs => spend c s p w a xs
  | .split a src xs => do
    let L ← splitTransfer s.ledger a src xs
    pure { s with ledger := L }
  | .transfer a src dst x => do
    let L ← s.ledger.transfer a src dst x
    pure { s with ledger := L }
  | .mint a dst x => do
    let L ← s.ledger.mint a dst x
    pure { s with ledger := L }
  | .burn a src x => do
    let L ← s.ledger.burn a src x
    pure { s with ledger := L }

/-- The holding account has no key and is nobody's payee: it signs nothing, has no holds of its own, spends do
not name it. (Asset issuers can burn from it, see `Props.C79_issuer_refuted`.) -/
def Outside (c : Cfg) : Op → Prop
  | .place _ w _ _ => w ≠ c.pot
  | .release _ w _ _ => w ≠ c.pot
  | .spend _ w _ xs => w ≠ c.pot ∧ ∀ x ∈ xs, x.1 ≠ c.pot
  | .split _ src _ => src ≠ c.pot
  | .transfer _ src _ _ => src ≠ c.pot
  | .mint _ _ _ => True
  | .burn _ src _ => src ≠ c.pot

/-- No holds, any sound balances. -/
def Genesis (s : St) : Prop := s.ledger.Sound ∧ ∀ a w, s.holds a w = []

/-- States reached by operations that satisfy `G`. -/
inductive Reach (c : Cfg) (G : Op → Prop) : St → Prop
  | init {s : St} : Genesis s → Reach c G s
  | step {s s' : St} {op : Op} : Reach c G s → G op → step c s op = .ok s' → Reach c G s'

/-- Run operations, ignoring failing ones. -/
def exec (c : Cfg) (s : St) : List Op → St
  | [] => s
  | op :: ops =>
    match step c s op with
    | .ok s' => exec c s' ops
    | .error _ => exec c s ops

theorem exec_reach {c : Cfg} {G : Op → Prop} : ∀ (ops : List Op) {s : St}, Reach c G s → (∀ op ∈ ops, G op) →
    Reach c G (exec c s ops)
  | [], _, h, _ => h
  | op :: ops, s, h, hg => by
    unfold exec
    split
    · rename_i s' he
      exact exec_reach ops (.step h (hg _ List.mem_cons_self) he) (fun o ho => hg o (List.mem_cons_of_mem _ ho))
    · exact exec_reach ops h (fun o ho => hg o (List.mem_cons_of_mem _ ho))

end Verif.Holds
