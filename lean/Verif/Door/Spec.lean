import Verif.Door.Model

/-!
# What users rely on about the door accounts
-/

namespace Verif.Door

open Verif.Xrpl (Addr Msg Body)

/-- An account of XRPL is controlled by the keys `keys`: its signers are their accounts, all but one of them have to sign. -/
def Controls (c : Cfg) (A : Account) (keys : List Key) : Prop :=
  A.list.Perm (keys.map c.addr) ∧ A.quorum = keys.length - 1

/-- Where a history starts: nothing was requested yet, the signers of the door accounts are those the chain knows, and XRPL
has accepted their lists. -/
structure Genesis (c : Cfg) (s : St) : Prop where
  x : Xrpl.Genesis s.x
  xrpl : s.xrpl = signersOf c s s.keys
  active : s.active = s.xrpl
  change : s.change = false
  changed : s.changed = false
  sched : s.sched = none
  due : s.due = s.final
  delayed : s.delayed = []
  requests : s.requests = []
  proofs : s.proofs = []
  applied : s.xl.applied = []
  tickets : ∀ a t, (s.xl.acct a).tickets t = true → (s.xl.acct a).made t = true
  doors : ∀ d a, s.x.door d = some a →
    Controls c (s.xl.acct a) s.xrpl ∧ ValidList a (s.xl.acct a).list (s.xl.acct a).quorum

/-- Histories from `g` whose operations satisfy `G`. -/
inductive Reach (c : Cfg) (G : St → Op → Prop) (g : St) : St → Prop where
  | init : Genesis c g → Reach c G g g
  | step {s s' : St} {op : Op} : Reach c G g s → G s op → step c s op = .ok s' → Reach c G g s'

/-- The signature of `a` on `r` exists: `a` signs anything, or it is the account of a notary of the set that was asked to
sign `r`. -/
def HasSigned (c : Cfg) (bad : Addr → Bool) (s : St) (r : Req) (a : Addr) : Prop :=
  bad a = true ∨ ∃ p ∈ s.proofs, p.1 = r ∧ a ∈ p.2.map c.addr

/-- Only signatures that exist are used. -/
def Honest (c : Cfg) (bad : Addr → Bool) (s : St) : Op → Prop
  | .relay r who => ∀ a ∈ who, HasSigned c bad s r a
  | _ => True

/-- Fewer bad accounts than have to sign. -/
def FewBad (bad : Addr → Bool) (l : List Addr) (q : Nat) : Prop := (l.filter bad).length < q

/-- An account with a signer list like those the chain asks for, of which few signers are bad. -/
def Sound (bad : Addr → Bool) (X : Xl) (a : Addr) : Prop :=
  FewBad bad (X.acct a).list (X.acct a).quorum ∧ (X.acct a).quorum = (X.acct a).list.length - 1 ∧
    ValidList a (X.acct a).list (X.acct a).quorum

/-- Whenever the handover asks XRPL for new signers, few of them are bad. -/
def FewNext (c : Cfg) (bad : Addr → Bool) (s : St) : Op → Prop
  | .change _ => FewBad bad ((signersOf c s s.next).map c.addr) ((signersOf c s s.next).length - 1)
  | .rotate _ _ _ => FewBad bad ((signersOf c s s.next).map c.addr) ((signersOf c s s.next).length - 1)
  | _ => True

/-- Every list of signers the chain has asked for is in force or was. -/
def AllApplied (s : St) : Prop := ∀ r ∈ s.requests, r.msg.body = .signers → r ∈ s.xl.applied

/-- The handover can ask for new signers where they differ: both door accounts and a ticket of each are known, and XRPL knows
the tickets too. -/
def CanAsk (c : Cfg) (s : St) : Prop :=
  (signersOf c s s.next).Perm s.xrpl ∨
    ((submitLists c s (signersOf c s s.next)).2 = true ∧
      ∀ r ∈ (submitLists c s (signersOf c s s.next)).1.requests.drop s.requests.length,
        (s.xl.acct r.msg.src).tickets r.msg.ticket = true)

/-- An orderly handover: root leaves the allowed signers and the door accounts as they are, the handover can ask for new
signers, and before it is completed the lists it asked for are relayed. -/
def Orderly (c : Cfg) (s : St) : Op → Prop
  | .x (.setDoor _ _) => False
  | .whitelist _ => False
  | .change _ => s.sched = none ∧ CanAsk c s
  | .rotate _ _ _ => s.sched = none ∧ (s.final = true → s.changed = true → AllApplied s) ∧
      (s.final = true → s.changed = false → CanAsk c s)
  | .finalise => AllApplied s
  | _ => True

/-- The state after trying an operation. -/
def after (c : Cfg) (s : St) (op : Op) : St :=
  match step c s op with
  | .ok s1 => s1
  | .error _ => s

/-- Run operations, ignoring failing ones. -/
def exec (c : Cfg) (s : St) : List Op → St
  | [] => s
  | op :: ops => exec c (after c s op) ops

/-- Every operation of the run satisfies `G`. -/
def Along (c : Cfg) (G : St → Op → Prop) (s : St) : List Op → Prop
  | [] => True
  | op :: ops => G s op ∧ Along c G (after c s op) ops

theorem exec_reach {c : Cfg} {G : St → Op → Prop} {g : St} : ∀ (ops : List Op) {s : St}, Reach c G g s →
    Along c G s ops → Reach c G g (exec c s ops)
  | [], _, h, _ => h
  | op :: ops, s, h, hg => by
    unfold exec
    refine exec_reach ops ?_ hg.2
    unfold after
    cases he : Door.step c s op with
    | ok s' => exact .step h hg.1 he
    | error _ => exact h

end Verif.Door
