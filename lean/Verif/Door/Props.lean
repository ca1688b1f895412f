import Verif.Door.Sync
import Verif.Xrpl.Demo

/-!
# C195–C197: the door accounts of XRPL
-/

namespace Verif.Door

open Verif.Xrpl (Addr Msg Body)

instance (c : Cfg) (bad : Addr → Bool) (s : St) (op : Op) : Decidable (Honest c bad s op) := by
  cases op <;> unfold Honest <;> try infer_instance
  unfold HasSigned
  infer_instance

instance (c : Cfg) (bad : Addr → Bool) (s : St) (op : Op) : Decidable (FewNext c bad s op) := by
  cases op <;> unfold FewNext FewBad <;> infer_instance

instance (bad : Addr → Bool) (l : List Addr) (q : Nat) : Decidable (FewBad bad l q) := by unfold FewBad; infer_instance

instance (s : St) : Decidable (AllApplied s) := by unfold AllApplied; infer_instance

instance (c : Cfg) (s : St) : Decidable (CanAsk c s) := by unfold CanAsk; infer_instance

instance (c : Cfg) (s : St) (op : Op) : Decidable (Orderly c s op) := by
  cases op with
  | x op => cases op <;> unfold Orderly <;> infer_instance
  | _ => unfold Orderly; infer_instance

instance (c : Cfg) (A : Account) (k : List Key) : Decidable (Controls c A k) := by unfold Controls; infer_instance

instance instAlong (c : Cfg) (G : St → Op → Prop) [∀ s op, Decidable (G s op)] : ∀ (ops : List Op) (s : St), Decidable (Along c G s ops)
  | [], _ => isTrue trivial
  | op :: ops, s => by
    unfold Along
    have := instAlong c G ops (after c s op)
    infer_instance

/-- Only existing signatures are used and few signers are bad. -/
def Fair (c : Cfg) (bad : Addr → Bool) (s : St) (op : Op) : Prop := Honest c bad s op ∧ FewNext c bad s op

instance (c : Cfg) (bad : Addr → Bool) (s : St) (op : Op) : Decidable (Fair c bad s op) := by unfold Fair; infer_instance

/-- And handovers are orderly. -/
def Good (c : Cfg) (bad : Addr → Bool) (s : St) (op : Op) : Prop := Honest c bad s op ∧ FewNext c bad s op ∧ Orderly c s op

instance (c : Cfg) (bad : Addr → Bool) (s : St) (op : Op) : Decidable (Good c bad s op) := by unfold Good; infer_instance

/-! ## A chain with validators 1, 2, …, whose XRPL accounts are 1001, 1002, …; tickets 0 to 99 exist on XRPL -/

def c0 : Cfg where
  x := Xrpl.cfg0
  addr := fun k => 1000 + k
  maxKeys := 8

def acct0 (l : List Addr) : Account where
  list := l
  quorum := l.length - 1
  tickets := fun t => decide (t < 100)
  made := fun t => decide (t < 100)

/-- Validators `keys`, all of which may sign for XRPL as far as `allowed` says. -/
def start (keys : List Key) (allowed : Key → Bool) : St where
  x := Xrpl.g0
  keys := keys
  next := keys
  xrpl := keys.filter allowed
  allowed := allowed
  manual := false
  change := false
  changed := false
  final := false
  due := false
  sched := none
  active := keys.filter allowed
  delayed := []
  requests := []
  proofs := []
  xl := ⟨fun a => if a = 500 ∨ a = 600 then acct0 ((keys.filter allowed).map c0.addr) else acct0 [], []⟩

theorem start_genesis (keys : List Key) (allowed : Key → Bool) (h1 : (keys.filter allowed).take 8 = keys.filter allowed)
    (h2 : ∀ a, a = 500 ∨ a = 600 → ValidList a ((keys.filter allowed).map c0.addr) ((keys.filter allowed).length - 1)) :
    Genesis c0 (start keys allowed) := by
  refine ⟨Xrpl.g0_genesis, h1.symm, rfl, rfl, rfl, rfl, rfl, rfl, rfl, rfl, rfl, ?_, ?_⟩
  · intro a t ht
    dsimp only [start] at ht ⊢
    by_cases ha : a = 500 ∨ a = 600
    · rw [if_pos ha] at ht ⊢; exact ht
    · rw [if_neg ha] at ht ⊢; exact ht
  · intro d a hd
    have ha : a = 500 ∨ a = 600 := by
      cases d with
      | main => left; have : some 500 = some a := hd; cases this; rfl
      | nft => right; have : some 600 = some a := hd; cases this; rfl
    dsimp only [start]
    rw [if_pos ha]
    refine ⟨⟨List.Perm.refl _, ?_⟩, ?_⟩
    · show ((keys.filter allowed).map c0.addr).length - 1 = _
      rw [List.length_map]
    · show ValidList a _ (((keys.filter allowed).map c0.addr).length - 1)
      rw [List.length_map]
      exact h2 a ha

def all : Key → Bool := fun _ => true

def none_ : Addr → Bool := fun _ => false

def g1 : St := start [1, 2, 3] all

theorem g1_genesis : Genesis c0 g1 := start_genesis _ _ (by decide) (fun a h => by rcases h with rfl | rfl <;> decide)

/-- The list a handover to the signers `l` asks for. -/
def setList (d : Xrpl.Door) (ticket : Nat) (a : Addr) (l : List Addr) : Req := ⟨⟨d, ticket, a, a, none, 10, .signers⟩, l, l.length - 1⟩

/-- A withdrawal of 900 drops with ticket 0. -/
def pay : Req := ⟨⟨.main, 0, 500, 800, none, 10, .xrp 900⟩, [], 0⟩

/-! ## C195 -/

/-- C195, partial: after any history with orderly handovers, outside of a handover the signers of both door accounts on XRPL
are the accounts of the chain's current signers, all but one of them have to sign, they are the ones the nodes ask, and so a
transaction of a door account with a ticket of XRPL is carried out when any all but one of them have signed it.
Missing: handovers are not always orderly, see `C195_whitelist_refuted`, `C195_tickets_refuted`, `C195_single_refuted`,
`C195_paused_refuted` and `C195_order_refuted`. -/
theorem C195_sync_partial {c : Cfg} {bad : Addr → Bool} {g s : St} (hb : FewBad bad (g.xrpl.map c.addr) (g.xrpl.length - 1))
    (h : Reach c (Good c bad) g s) (hc : s.change = false) {d : Xrpl.Door} {a : Addr} (hd : s.x.door d = some a) :
    Controls c (s.xl.acct a) s.xrpl ∧ s.active = s.xrpl ∧
    ∀ r who, r.msg.src = a → r.msg.body ≠ .signers → (s.xl.acct a).tickets r.msg.ticket = true → who.Nodup →
      (∀ b ∈ who, b ∈ s.xrpl.map c.addr) → s.xrpl.length - 1 ≤ who.length → (relay s.xl r who).isOk = true := by
  have hs := Reach.sy hb h
  have hsafe : Safe bad (isDoor g) s := h.safe (fun _ _ h => ⟨h.1, h.2.1⟩) (h.genesis.sound hb)
  have hcon := (hs.idle hc).2.2.2 d a hd
  refine ⟨hcon, hs.active, ?_⟩
  rintro r who rfl hbody ht hn hsub hq
  have hv := (hsafe.few r.msg.src (isDoor_of (hs.door ▸ hd))).2.2
  have hq' : (s.xl.acct r.msg.src).quorum ≤ who.length := by rw [hcon.2]; exact hq
  have hne : who ≠ [] := by
    intro e
    rw [e, List.length_nil] at hq'
    exact hv.1 (Nat.le_zero.mp hq')
  have : ∃ X', relay s.xl r who = .ok X' := by
    simp only [relay, bind_ok, ensure_ok, if_neg hbody]
    exact ⟨_, (), hn, (), fun b hb' => hcon.1.mem_iff.mpr (hsub b hb'), (), ⟨hq', hne⟩, (), ht, rfl⟩
  obtain ⟨X', e⟩ := this
  rw [e]
  rfl

/-- A handover from 1, 2, 3 to 1, 4, 5 with a withdrawal before it. -/
def orderly : List Op :=
  [.rotate [1, 4, 5] true true, .x (.withdraw 5 2 900 800 none), .relay pay [1003, 1001], .change true,
    .relay (setList .main 1 500 [1001, 1004, 1005]) [1001, 1002], .relay (setList .nft 0 600 [1001, 1004, 1005]) [1002, 1003],
    .rotate [1, 4, 5] false true, .x (.withdraw 5 2 50 800 none)]

-- a handover in which both lists change hands; before and after it a withdrawal
example : Reach c0 (Good c0 none_) g1 (exec c0 g1 orderly) ∧ FewBad none_ (g1.xrpl.map c0.addr) (g1.xrpl.length - 1) ∧
    (exec c0 g1 orderly).change = false ∧ (exec c0 g1 orderly).xrpl = [1, 4, 5] ∧
    ((exec c0 g1 orderly).xl.acct 500).list = [1001, 1004, 1005] ∧ ((exec c0 g1 orderly).xl.acct 600).quorum = 2 ∧
    (exec c0 g1 orderly).xl.applied.length = 3 ∧ (exec c0 g1 orderly).proofs.map (fun p => p.2) =
      [[1, 2, 3], [1, 2, 3], [1, 2, 3], [1, 4, 5]] ∧
    (exec c0 g1 orderly).requests.length = 4 :=
  ⟨exec_reach _ (.init g1_genesis) (by decide +kernel), by decide, by decide +kernel, by decide +kernel, by decide +kernel,
    by decide +kernel, by decide +kernel, by decide +kernel, by decide +kernel⟩

/-- With the handover made by the call scheduled at the end of a forced era. -/
def forced : List Op :=
  [.rotate [1, 4, 5] true true, .rotate [1, 4, 5] false true,
    .relay (setList .main 0 500 [1001, 1004, 1005]) [1001, 1002], .relay (setList .nft 0 600 [1001, 1004, 1005]) [1002, 1003],
    .finalise]

example : Reach c0 (Good c0 none_) g1 (exec c0 g1 forced) ∧ (exec c0 g1 forced).change = false ∧
    (exec c0 g1 forced).xrpl = [1, 4, 5] ∧ ((exec c0 g1 forced).xl.acct 500).list = [1001, 1004, 1005] :=
  ⟨exec_reach _ (.init g1_genesis) (by decide +kernel), by decide +kernel, by decide +kernel, by decide +kernel⟩

/-! ### Eras in which nothing changes -/

/-- An era with the validators `K`: its last session begins, the change of authorities, the next era begins. -/
def era (K : List Key) : List Op := [.rotate K true true, .change true, .rotate K false true]

def eras (K : List Key) : Nat → List Op
  | 0 => []
  | n + 1 => era K ++ eras K n

/-- The validators and the signers of the era that follows are those of the present one. -/
structure Steady (c : Cfg) (s : St) (K : List Key) : Prop where
  keys : s.keys = K
  next : s.next = K
  xrpl : s.xrpl = signersOf c s K
  final : s.final = false
  sched : s.sched = none
  change : s.change = false
  changed : s.changed = false
  due : s.due = false
  active : s.active = s.xrpl

theorem exec_append (c : Cfg) : ∀ (l l' : List Op) (s : St), exec c s (l ++ l') = exec c (exec c s l) l'
  | [], _, _ => rfl
  | op :: l, l', s => exec_append c l l' (after c s op)

theorem Steady.era {c : Cfg} {s : St} {K : List Key} (h : Steady c s K) : exec c s (era K) = s := by
  have e0 : ending c s true = s := by
    unfold ending
    rw [h.final]
    rfl
  have e1 : rotate c s K true true = { s with
      final := true
      due := true } := by
    unfold rotate
    rw [e0, h.due, ← h.next]
    rfl
  have e2 : handleChange c { s with
      final := true
      due := true } true = { s with
      final := true
      changed := true
      change := true
      due := false } := by
    have hp : (signersOf c { s with
      final := true
      due := true } s.next).isPerm s.xrpl = true := by
      rw [List.isPerm_iff, h.xrpl, h.next]
      exact List.Perm.refl _
    unfold handleChange askLists
    dsimp only
    rw [if_pos hp, Bool.or_true]
  have e3 : rotate c { s with
      final := true
      changed := true
      change := true
      due := false } K false true = s := by
    unfold rotate ending finalise
    dsimp only
    rw [if_pos rfl, if_pos rfl]
    dsimp only
    have hx : signersOf c { s with
      final := true
      changed := true
      change := true
      due := false } s.next = s.xrpl := by rw [h.xrpl, h.next]; rfl
    rw [hx]
    have h1 := h.keys
    have h2 := h.next
    have h3 := h.final
    have h4 := h.change
    have h5 := h.changed
    have h6 := h.due
    have h7 := h.active
    cases s
    dsimp only at *
    subst h1 h2 h3 h4 h5 h6 h7
    rfl
  show exec c (after c (after c (after c s (.rotate K true true)) (.change true)) (.rotate K false true)) [] = s
  have a1 : after c s (.rotate K true true) = rotate c s K true true := rfl
  rw [a1, e1]
  have a2 : after c { s with
      final := true
      due := true } (.change true) = handleChange c { s with
      final := true
      due := true } true := rfl
  rw [a2, e2]
  exact e3

theorem Steady.eras {c : Cfg} {s : St} {K : List Key} (h : Steady c s K) : ∀ n, exec c s (eras K n) = s
  | 0 => rfl
  | n + 1 => by
    show exec c s (Door.era K ++ Door.eras K n) = s
    rw [exec_append, h.era, h.eras n]

theorem along_append {c : Cfg} {G : St → Op → Prop} : ∀ (l l' : List Op) (s : St), Along c G s l → Along c G (exec c s l) l' →
    Along c G s (l ++ l')
  | [], _, _, _, h => h
  | op :: l, l', s, h, h' => ⟨h.1, along_append l l' (after c s op) h.2 h'⟩

/-- A history followed by any number of eras in which nothing changes. -/
theorem Steady.reach {c : Cfg} {G : St → Op → Prop} {g : St} {ops : List Op} {K : List Key} (hg : Genesis c g)
    (ha : Along c G g ops) (h : Steady c (exec c g ops) K) (he : Along c G (exec c g ops) (Door.era K)) (n : Nat) :
    Reach c G g (exec c g (ops ++ Door.eras K n)) ∧ exec c g (ops ++ Door.eras K n) = exec c g ops := by
  have hl : ∀ n, Along c G (exec c g ops) (Door.eras K n) := by
    intro n
    induction n with
    | zero => trivial
    | succ n ih =>
      refine along_append _ _ _ he ?_
      rw [h.era]
      exact ih
  refine ⟨exec_reach _ (.init hg) (along_append _ _ _ ha (hl n)), ?_⟩
  rw [exec_append, h.eras n]

/-- Signatures of accounts that are not on the list are worth nothing. -/
theorem relay_none {X : Xl} {r : Req} {who : List Addr} (h : ∀ a ∈ who, a ∉ (X.acct r.msg.src).list) :
    (relay X r who).isOk = false := by
  cases he : relay X r who with
  | error e => rfl
  | ok X' =>
    simp only [relay, bind_ok, ensure_ok] at he
    obtain ⟨_, _, _, h2, _, h3, _⟩ := he
    cases who with
    | nil => exact absurd rfl h3.2
    | cons a l => exact absurd (h2 a List.mem_cons_self) (h a List.mem_cons_self)

theorem apart {a : Addr} (h : a ∈ [1004, 1005, 1006]) (h' : a ∈ [1001, 1002, 1003]) : False := by
  simp only [List.mem_cons, List.not_mem_nil, or_false] at h h'
  rcases h with rfl | rfl | rfl <;> rcases h' with h' | h' | h' <;> cases h'

/-- Six validators of which the first three may sign for XRPL. -/
def g2 : St := start [1, 2, 3, 4, 5, 6] (fun k => decide (k ≤ 3))

theorem g2_genesis : Genesis c0 g2 := start_genesis _ _ (by decide) (fun a h => by rcases h with rfl | rfl <;> decide)

/-- Root replaces the signers; an era ends. -/
def swap : List Op :=
  .whitelist [(1, false), (2, false), (3, false), (4, true), (5, true), (6, true)] :: era [1, 2, 3, 4, 5, 6]

/-- C195 does not hold when root changes the allowed signers: the chain's list changes in the same call, so that the handover
finds nothing to change and never asks XRPL. However many eras pass, no list is outstanding, the bridge is not paused, the
nodes ask signers 4, 5 and 6, and the door accounts know only 1, 2 and 3: nothing that is signed can be carried out. -/
theorem C195_whitelist_refuted (n : Nat) : ∃ s, Reach c0 (Fair c0 none_) g2 s ∧
    s = exec c0 g2 (swap ++ eras [1, 2, 3, 4, 5, 6] n) ∧ AllApplied s ∧ paused s = false ∧ s.xrpl = [4, 5, 6] ∧
    s.active = [4, 5, 6] ∧ (s.xl.acct 500).list = [1001, 1002, 1003] ∧ (s.xl.acct 600).list = [1001, 1002, 1003] ∧
    ∀ r who, r.msg.src = 500 ∨ r.msg.src = 600 → (∀ a ∈ who, a ∈ s.active.map c0.addr) → (relay s.xl r who).isOk = false := by
  have hst : Steady c0 (exec c0 g2 swap) [1, 2, 3, 4, 5, 6] := by constructor <;> decide +kernel
  obtain ⟨h1, h2⟩ := Steady.reach (G := Fair c0 none_) g2_genesis (by decide +kernel) hst (by decide +kernel) n
  refine ⟨_, h1, rfl, ?_⟩
  rw [h2]
  have e1 : ((exec c0 g2 swap).xl.acct 500).list = [1001, 1002, 1003] := by decide +kernel
  have e2 : ((exec c0 g2 swap).xl.acct 600).list = [1001, 1002, 1003] := by decide +kernel
  have e3 : (exec c0 g2 swap).active = [4, 5, 6] := by decide +kernel
  refine ⟨by decide +kernel, by decide +kernel, by decide +kernel, e3, e1, e2, ?_⟩
  intro r who hr hw
  refine relay_none fun a ha hl => ?_
  have h3 := hw a ha
  rw [e3] at h3
  rcases hr with hr | hr <;> rw [hr] at hl
  · rw [e1] at hl
    exact apart h3 hl
  · rw [e2] at hl
    exact apart h3 hl

/-- The tickets of the NFT door are used up, then the validators change. -/
def noTickets : List Op :=
  [.x (.nftTx 7), .x (.nftTx 7), .x (.nftTx 7), .rotate [4, 5, 6] true true, .change true,
    .relay (setList .main 0 500 [1004, 1005, 1006]) [1001, 1002], .rotate [4, 5, 6] false true]

/-- C195 does not hold when a door account has no ticket at the handover: the request fails, the chain's signers change all the
same, and as they are now the same in every era the request is never repeated. -/
theorem C195_tickets_refuted (n : Nat) : ∃ s, Reach c0 (Fair c0 none_) g1 s ∧ s = exec c0 g1 (noTickets ++ eras [4, 5, 6] n) ∧
    AllApplied s ∧ paused s = false ∧ s.xrpl = [4, 5, 6] ∧ s.active = [4, 5, 6] ∧
    (s.xl.acct 500).list = [1004, 1005, 1006] ∧ (s.xl.acct 600).list = [1001, 1002, 1003] := by
  have hst : Steady c0 (exec c0 g1 noTickets) [4, 5, 6] := by constructor <;> decide +kernel
  obtain ⟨h1, h2⟩ := Steady.reach (G := Fair c0 none_) g1_genesis (by decide +kernel) hst (by decide +kernel) n
  refine ⟨_, h1, rfl, ?_⟩
  rw [h2]
  decide +kernel

/-- All validators but one leave. -/
def alone : List Op := [.rotate [1] true true, .change true, .rotate [1] false true]

/-- C195 does not hold when one signer is left: the list the chain asks for has a quorum of zero, which XRPL never accepts. -/
theorem C195_single_refuted (n : Nat) : ∃ s, Reach c0 (Honest c0 none_) g1 s ∧ s = exec c0 g1 (alone ++ eras [1] n) ∧
    paused s = false ∧ s.xrpl = [1] ∧ s.requests = [setList .main 0 500 [1001], setList .nft 0 600 [1001]] ∧
    (∀ r ∈ s.requests, ∀ X who, (relay X r who).isOk = false) ∧ (s.xl.acct 500).list = [1001, 1002, 1003] := by
  have hst : Steady c0 (exec c0 g1 alone) [1] := by constructor <;> decide +kernel
  obtain ⟨h1, h2⟩ := Steady.reach (G := Honest c0 none_) g1_genesis (by decide +kernel) hst (by decide +kernel) n
  refine ⟨_, h1, rfl, ?_⟩
  rw [h2]
  have e : (exec c0 g1 alone).requests = [setList .main 0 500 [1001], setList .nft 0 600 [1001]] := by decide +kernel
  refine ⟨by decide +kernel, by decide +kernel, e, ?_, by decide +kernel⟩
  intro r hr X who
  rw [e] at hr
  have hr' : r.msg.body = .signers ∧ r.quorum = 0 := by
    simp only [List.mem_cons, List.not_mem_nil, or_false] at hr
    rcases hr with rfl | rfl <;> exact ⟨rfl, rfl⟩
  cases he : relay X r who with
  | error e => rfl
  | ok X' => exact absurd hr'.2 (((relay_ok he).2.2.2.2.2.2.2.2.1 hr'.1).1.1)

/-- Root has paused the bridge when the validators change, and resumes it afterwards. -/
def pausedOps : List Op :=
  [.pause true, .rotate [4, 5, 6] true true, .change true, .rotate [4, 5, 6] false true, .pause false,
    .release (setList .main 0 500 [1004, 1005, 1006]), .release (setList .nft 0 600 [1004, 1005, 1006])]

/-- C195 does not hold when the bridge is paused by hand at the handover: the lists wait until it is resumed, then the new
signers are asked to sign them, whom XRPL does not know. -/
theorem C195_paused_refuted (n : Nat) : ∃ s, Reach c0 (Fair c0 none_) g1 s ∧ s = exec c0 g1 (pausedOps ++ eras [4, 5, 6] n) ∧
    paused s = false ∧ s.delayed = [] ∧ s.xrpl = [4, 5, 6] ∧ (s.xl.acct 500).list = [1001, 1002, 1003] ∧
    s.requests = [setList .main 0 500 [1004, 1005, 1006], setList .nft 0 600 [1004, 1005, 1006]] ∧
    ∀ r ∈ s.requests, ∀ who, (∀ a ∈ who, HasSigned c0 none_ s r a) → (relay s.xl r who).isOk = false := by
  have hst : Steady c0 (exec c0 g1 pausedOps) [4, 5, 6] := by constructor <;> decide +kernel
  obtain ⟨h1, h2⟩ := Steady.reach (G := Fair c0 none_) g1_genesis (by decide +kernel) hst (by decide +kernel) n
  refine ⟨_, h1, rfl, ?_⟩
  rw [h2]
  have e : (exec c0 g1 pausedOps).requests = [setList .main 0 500 [1004, 1005, 1006], setList .nft 0 600 [1004, 1005, 1006]] := by
    decide +kernel
  refine ⟨by decide +kernel, by decide +kernel, by decide +kernel, by decide +kernel, e, ?_⟩
  intro r hr who hw
  have hp : (exec c0 g1 pausedOps).proofs.map (fun p => p.2) = [[4, 5, 6], [4, 5, 6]] := by decide +kernel
  have e1 : ((exec c0 g1 pausedOps).xl.acct 500).list = [1001, 1002, 1003] := by decide +kernel
  have e2 : ((exec c0 g1 pausedOps).xl.acct 600).list = [1001, 1002, 1003] := by decide +kernel
  have hl : ((exec c0 g1 pausedOps).xl.acct r.msg.src).list = [1001, 1002, 1003] := by
    rw [e] at hr
    simp only [List.mem_cons, List.not_mem_nil, or_false] at hr
    rcases hr with rfl | rfl
    · exact e1
    · exact e2
  refine relay_none fun a ha hla => ?_
  rw [hl] at hla
  rcases hw a ha with h3 | ⟨p, hp', _, h3⟩
  · cases h3
  · have : p.2 ∈ (exec c0 g1 pausedOps).proofs.map (fun p => p.2) := List.mem_map_of_mem hp'
    rw [hp] at this
    simp only [List.mem_cons, List.not_mem_nil, or_false, or_self] at this
    rw [this] at h3
    exact apart h3 hla

/-- Two handovers; the list of the first is relayed after that of the second. -/
def outOfOrder : List Op :=
  [.rotate [1, 2, 4] true true, .change true, .rotate [1, 2, 4] false true,
    .rotate [1, 2, 3, 4] true true, .change true,
    .relay (setList .main 1 500 [1001, 1002, 1003, 1004]) [1001, 1002],
    .relay (setList .nft 1 600 [1001, 1002, 1003, 1004]) [1001, 1002], .rotate [1, 2, 3, 4] false true,
    .relay (setList .main 0 500 [1001, 1002, 1004]) [1001, 1002, 1003],
    .relay (setList .nft 0 600 [1001, 1002, 1004]) [1001, 1002, 1003]]

/-- C195 does not hold when a list is relayed late: tickets put no order on the lists, so an older one replaces a newer one,
and as the chain's signers stay the same it is never put right. -/
theorem C195_order_refuted (n : Nat) : ∃ s, Reach c0 (Fair c0 none_) g1 s ∧ s = exec c0 g1 (outOfOrder ++ eras [1, 2, 3, 4] n) ∧
    AllApplied s ∧ paused s = false ∧ s.xrpl = [1, 2, 3, 4] ∧ s.active = [1, 2, 3, 4] ∧
    (s.xl.acct 500).list = [1001, 1002, 1004] ∧ (s.xl.acct 600).list = [1001, 1002, 1004] := by
  have hst : Steady c0 (exec c0 g1 outOfOrder) [1, 2, 3, 4] := by constructor <;> decide +kernel
  obtain ⟨h1, h2⟩ := Steady.reach (G := Fair c0 none_) g1_genesis (by decide +kernel) hst (by decide +kernel) n
  refine ⟨_, h1, rfl, ?_⟩
  rw [h2]
  decide +kernel

/-- The limit on the number of signers root may set in one call is not one: 256 pass. -/
theorem C195_limit_refuted (c : Cfg) (s : St) (l : List (Key × Bool)) (h : l.length = 256) : (whitelist c s l).isOk = true := by
  have : ∃ s', whitelist c s l = .ok s' := by
    simp only [whitelist, bind_ok, ensure_ok, pure_ok]
    exact ⟨_, (), (by rw [h]; decide), rfl⟩
  obtain ⟨s', e⟩ := this
  rw [e]
  rfl

/-! ## C196 -/

/-- C196, partial: a transaction the signers were asked to sign is carried out at any later time, whatever happened in between,
as long as its ticket is there and at most one of the signers the door account has by then was not asked to sign it.
Missing: `C196_stale_refuted`, after a handover the signatures of the old signers are worth nothing and nobody signs again. -/
theorem C196_payable_partial {c : Cfg} {bad : Addr → Bool} {g s : St} {a : Addr} (hD : Sound bad g.xl a)
    (h : Reach c (Fair c bad) g s) {p : Req × List Key} (hp : p ∈ s.proofs) (ha : p.1.msg.src = a)
    (hbody : p.1.msg.body ≠ .signers) (ht : (s.xl.acct a).tickets p.1.msg.ticket = true)
    (hfew : ((s.xl.acct a).list.filter (fun b => decide (b ∉ p.2.map c.addr))).length ≤ 1) :
    ∃ who, (∀ b ∈ who, HasSigned c none_ s p.1 b) ∧ (relay s.xl p.1 who).isOk = true := by
  have hsafe : Safe bad (fun b => decide (b = a)) s :=
    h.safe (fun _ _ h => h) (fun b hb => (of_decide_eq_true hb) ▸ hD)
  obtain ⟨-, hq, hv⟩ := hsafe.few a (by simp)
  subst ha
  refine ⟨(s.xl.acct p.1.msg.src).list.filter (fun b => decide (b ∈ p.2.map c.addr)), fun b hb => ?_, ?_⟩
  · right
    rw [List.mem_filter] at hb
    exact ⟨p, hp, rfl, of_decide_eq_true hb.2⟩
  · generalize hL : (s.xl.acct p.1.msg.src).list = L at *
    have hsum : (L.filter (fun b => decide (b ∈ p.2.map c.addr))).length +
        (L.filter (fun b => decide (b ∉ p.2.map c.addr))).length = L.length := by
      clear * -
      induction L with
      | nil => rfl
      | cons x l ih =>
        by_cases hx : x ∈ p.2.map c.addr
        · rw [List.filter_cons_of_pos (by simpa using hx), List.filter_cons_of_neg (by simpa using hx)]
          simp only [List.length_cons]
          omega
        · rw [List.filter_cons_of_neg (by simpa using hx), List.filter_cons_of_pos (by simpa using hx)]
          simp only [List.length_cons]
          omega
    have hlen : (s.xl.acct p.1.msg.src).quorum ≤ (L.filter (fun b => decide (b ∈ p.2.map c.addr))).length := by
      rw [hq]; omega
    have hne : L.filter (fun b => decide (b ∈ p.2.map c.addr)) ≠ [] := by
      intro e
      rw [e, List.length_nil] at hlen
      exact hv.1 (Nat.le_zero.mp hlen)
    have : ∃ X', relay s.xl p.1 (L.filter (fun b => decide (b ∈ p.2.map c.addr))) = .ok X' := by
      simp only [relay, bind_ok, ensure_ok, if_neg hbody]
      refine ⟨_, (), hv.2.2.1.filter _, (), fun b hb => ?_, (), ⟨hlen, hne⟩, (), ht, rfl⟩
      rw [hL]
      exact (List.mem_filter.mp hb).1
    obtain ⟨X', e⟩ := this
    rw [e]
    rfl

/-- A withdrawal is signed by 1, 2, 3, then 4 takes the place of 1. -/
def slow : List Op :=
  [.rotate [2, 3, 4] true true, .x (.withdraw 5 2 900 800 none), .change true,
    .relay (setList .main 1 500 [1002, 1003, 1004]) [1001, 1002], .relay (setList .nft 0 600 [1002, 1003, 1004]) [1002, 1003],
    .rotate [2, 3, 4] false true]

example : Reach c0 (Fair c0 none_) g1 (exec c0 g1 slow) ∧ Sound none_ g1.xl 500 ∧ (pay, [1, 2, 3]) ∈ (exec c0 g1 slow).proofs ∧
    (((exec c0 g1 slow).xl.acct 500).list.filter (fun b => decide (b ∉ [1, 2, 3].map c0.addr))).length ≤ 1 ∧
    ((exec c0 g1 slow).xl.acct 500).tickets 0 = true :=
  ⟨exec_reach _ (.init g1_genesis) (by decide +kernel), by unfold Sound; decide +kernel, by decide +kernel, by decide +kernel,
    by decide +kernel⟩

/-- A withdrawal is signed by 1, 2, 3 and not relayed before 4, 5, 6 take their place in an orderly handover. -/
def stale : List Op :=
  [.rotate [4, 5, 6] true true, .x (.withdraw 5 2 900 800 none), .change true,
    .relay (setList .main 1 500 [1004, 1005, 1006]) [1001, 1002], .relay (setList .nft 0 600 [1004, 1005, 1006]) [1002, 1003],
    .rotate [4, 5, 6] false true]

/-- C196 does not hold: a withdrawal that was paid for and signed before an orderly handover, and relayed after it, cannot be
carried out although its ticket is unused: its signers have no say any more, and no one is asked again however many eras
pass. -/
theorem C196_stale_refuted (n : Nat) : ∃ s, Reach c0 (Good c0 none_) g1 s ∧ s = exec c0 g1 (stale ++ eras [4, 5, 6] n) ∧
    s.x.ledger.bal 2 5 + 910 = g1.x.ledger.bal 2 5 ∧ (pay, [1, 2, 3]) ∈ s.proofs ∧ (s.xl.acct 500).tickets 0 = true ∧
    Controls c0 (s.xl.acct 500) s.xrpl ∧ paused s = false ∧ s.delayed = [] ∧
    ∀ who, (∀ a ∈ who, HasSigned c0 none_ s pay a) → (relay s.xl pay who).isOk = false := by
  have hst : Steady c0 (exec c0 g1 stale) [4, 5, 6] := by constructor <;> decide +kernel
  obtain ⟨h1, h2⟩ := Steady.reach (G := Good c0 none_) g1_genesis (by decide +kernel) hst (by decide +kernel) n
  refine ⟨_, h1, rfl, ?_⟩
  rw [h2]
  refine ⟨by decide +kernel, by decide +kernel, by decide +kernel, by decide +kernel, by decide +kernel, by decide +kernel, ?_⟩
  intro who hw
  have hp : (exec c0 g1 stale).proofs.map (fun p => p.2) = [[1, 2, 3], [1, 2, 3], [1, 2, 3]] := by decide +kernel
  have e1 : ((exec c0 g1 stale).xl.acct 500).list = [1004, 1005, 1006] := by decide +kernel
  refine relay_none fun a ha hla => ?_
  have hla' : a ∈ ((exec c0 g1 stale).xl.acct 500).list := hla
  rw [e1] at hla'
  rcases hw a ha with h3 | ⟨p, hp', _, h3⟩
  · cases h3
  · have : p.2 ∈ (exec c0 g1 stale).proofs.map (fun p => p.2) := List.mem_map_of_mem hp'
    rw [hp] at this
    simp only [List.mem_cons, List.not_mem_nil, or_false, or_self] at this
    rw [this] at h3
    exact apart hla' h3

/-- What a step adds to the requests waits or is given to the signers of the time, and what waits stays or is given to them. -/
theorem step_kept {c : Cfg} {s s' : St} {op : Op} (h : step c s op = .ok s') :
    (s.change = true → s'.proofs = s.proofs) ∧
    ∀ r, (r ∈ s'.requests ∧ r ∉ s.requests ∨ r ∈ s.delayed) → r ∈ s'.delayed ∨ (s.change = false ∧ (r, s.active) ∈ s'.proofs) := by
  have pl : ∀ (x' : Xrpl.St) (l : List Req), (s.change = true → (plus s x' l).proofs = s.proofs) ∧
      ∀ r, (r ∈ (plus s x' l).requests ∧ r ∉ s.requests ∨ r ∈ s.delayed) →
        r ∈ (plus s x' l).delayed ∨ (s.change = false ∧ (r, s.active) ∈ (plus s x' l).proofs) := by
    intro x' l
    unfold plus
    dsimp only
    cases hp : paused s
    · refine ⟨fun hc => ?_, fun r hr => ?_⟩
      · unfold paused at hp; rw [hc] at hp; simp at hp
      · rcases hr with ⟨h1, h2⟩ | h1
        · right
          refine ⟨?_, ?_⟩
          · unfold paused at hp; cases hc : s.change
            · rfl
            · rw [hc] at hp; simp at hp
          · rw [if_neg (by decide)]
            exact List.mem_append_right _ (List.mem_map_of_mem ((List.mem_append.mp h1).resolve_left h2))
        · left; rw [if_neg (by decide)]; exact h1
    · refine ⟨fun _ => if_pos rfl, fun r hr => ?_⟩
      left
      rw [if_pos rfl]
      rcases hr with ⟨h1, h2⟩ | h1
      · exact List.mem_append_right _ ((List.mem_append.mp h1).resolve_left h2)
      · exact List.mem_append_left _ h1
  have same : ∀ {t : St}, t.proofs = s.proofs → t.requests = s.requests → t.delayed = s.delayed →
      (s.change = true → t.proofs = s.proofs) ∧ ∀ r, (r ∈ t.requests ∧ r ∉ s.requests ∨ r ∈ s.delayed) →
        r ∈ t.delayed ∨ (s.change = false ∧ (r, s.active) ∈ t.proofs) := by
    intro t e1 e2 e3
    refine ⟨fun _ => e1, fun r hr => .inl ?_⟩
    rw [e3]
    rcases hr with ⟨h1, h2⟩ | h1
    · rw [e2] at h1; exact absurd h1 h2
    · exact h1
  have hand : ∀ eth, (s.change = true → (handleChange c s eth).proofs = s.proofs) ∧
      ∀ r, (r ∈ (handleChange c s eth).requests ∧ r ∉ s.requests ∨ r ∈ s.delayed) →
        r ∈ (handleChange c s eth).delayed ∨ (s.change = false ∧ (r, s.active) ∈ (handleChange c s eth).proofs) := by
    intro eth
    obtain ⟨x', l, e, _⟩ := askLists_eq c s
    unfold handleChange
    rw [e]
    exact pl x' l
  cases op with
  | x xo =>
    simp only [step, bind_ok, ensure_ok, pure_ok] at h
    obtain ⟨_, h1, x', h2, rfl⟩ := h
    obtain ⟨⟨new, hn, _⟩, _⟩ := xstep_grow h1 h2
    rw [post_eq hn]
    exact pl _ _
  | whitelist l =>
    simp only [step, whitelist, bind_ok, ensure_ok, pure_ok] at h
    obtain ⟨_, _, rfl⟩ := h
    exact same rfl rfl rfl
  | pause b => cases h; exact same rfl rfl rfl
  | change eth =>
    simp only [step, bind_ok, ensure_ok, pure_ok] at h
    obtain ⟨_, _, rfl⟩ := h
    exact hand eth
  | rotate queued final eth =>
    cases h
    show (s.change = true → (ending c s eth).proofs = s.proofs) ∧
      ∀ r, (r ∈ (ending c s eth).requests ∧ r ∉ s.requests ∨ r ∈ s.delayed) →
        r ∈ (ending c s eth).delayed ∨ (s.change = false ∧ (r, s.active) ∈ (ending c s eth).proofs)
    unfold ending
    by_cases h1 : s.final = true
    · rw [if_pos h1]
      by_cases h2 : s.changed = true
      · rw [if_pos h2]; exact same rfl rfl rfl
      · rw [if_neg h2]; exact hand eth
    · rw [if_neg h1]; exact same rfl rfl rfl
  | finalise =>
    simp only [step, bind_ok, okOr_ok, pure_ok] at h
    obtain ⟨_, _, rfl⟩ := h
    exact same rfl rfl rfl
  | release r0 =>
    simp only [step, release, bind_ok, ensure_ok, pure_ok] at h
    obtain ⟨_, h1, _, h2, rfl⟩ := h
    have hc : s.change = false := by
      unfold paused at h1
      cases hc : s.change
      · rfl
      · rw [hc] at h1; simp at h1
    refine ⟨(fun e => by rw [hc] at e; cases e), fun r hr => ?_⟩
    rcases hr with ⟨h3, h4⟩ | h3
    · exact absurd h3 h4
    · by_cases e : r = r0
      · subst e
        exact .inr ⟨hc, List.mem_append_right _ (List.mem_singleton.mpr rfl)⟩
      · exact .inl ((List.mem_erase_of_ne e).mpr h3)
  | relay r who =>
    simp only [step, bind_ok, pure_ok] at h
    obtain ⟨_, _, rfl⟩ := h
    exact same rfl rfl rfl
  | ticket a t =>
    simp only [step, bind_ok, pure_ok] at h
    obtain ⟨_, _, rfl⟩ := h
    exact same rfl rfl rfl

/-- C196: during a handover nothing is given to the signers who are leaving: what is asked for waits, and what waits is kept
until the handover is over, when it goes to the signers of that time. -/
theorem C196_deferred {c : Cfg} {s s' : St} {op : Op} (h : step c s op = .ok s') :
    (s.change = true → s'.proofs = s.proofs ∧ (∀ r ∈ s'.requests, r ∉ s.requests → r ∈ s'.delayed) ∧
      ∀ r ∈ s.delayed, r ∈ s'.delayed) ∧
    (∀ r ∈ s.delayed, r ∈ s'.delayed ∨ (r, s.active) ∈ s'.proofs) := by
  obtain ⟨h1, h2⟩ := step_kept h
  refine ⟨fun hc => ⟨h1 hc, fun r hr hn => ?_, fun r hr => ?_⟩, fun r hr => ?_⟩
  · rcases h2 r (.inl ⟨hr, hn⟩) with h3 | ⟨h3, _⟩
    · exact h3
    · rw [hc] at h3; cases h3
  · rcases h2 r (.inr hr) with h3 | ⟨h3, _⟩
    · exact h3
    · rw [hc] at h3; cases h3
  · rcases h2 r (.inr hr) with h3 | ⟨_, h3⟩
    · exact .inl h3
    · exact .inr h3

/-- A withdrawal during a handover. -/
example : (exec c0 g1 [.rotate [4, 5, 6] true true, .change true]).change = true ∧
    (step c0 (exec c0 g1 [.rotate [4, 5, 6] true true, .change true]) (.x (.withdraw 5 2 900 800 none))).isOk = true ∧
    ((exec c0 g1 [.rotate [4, 5, 6] true true, .change true, .x (.withdraw 5 2 900 800 none)]).delayed.length = 1) := by
  decide +kernel

/-! ## C197 -/

/-- C197: nothing is carried out that the chain did not ask for. After any history in which fewer signers are bad than have to
sign, in every list that was ever asked for and in those at the start, the transactions carried out at such accounts, with
their content, are among those handed over, none more often than it was handed over, and none with the same ticket as
another; the ones handed over are those of the bridge. -/
theorem C197_requested {c : Cfg} {bad D : Addr → Bool} {g s : St} (hD : ∀ a, D a = true → Sound bad g.xl a)
    (h : Reach c (Fair c bad) g s) :
    (s.xl.applied.filter (fun r => D r.msg.src)).Subperm s.requests ∧
    (s.xl.applied.map (fun r => (r.msg.src, r.msg.ticket))).Nodup ∧
    s.requests.map (fun r => r.msg) = s.x.outbox ∧
    ((s.xl.applied.filter (fun r => D r.msg.src)).map (fun r => r.msg)).Subperm s.x.outbox := by
  have hsafe : Safe bad D s := h.safe (fun _ _ h => h) hD
  have hn : s.xl.applied.Nodup := List.Nodup.of_map _ hsafe.nodup
  have hsub : (s.xl.applied.filter (fun r => D r.msg.src)).Subperm s.requests := by
    refine List.subperm_of_subset (hn.filter _) fun r hr => ?_
    rw [List.mem_filter] at hr
    exact hsafe.applied r hr.1 hr.2
  refine ⟨hsub, hsafe.nodup, hsafe.msgs, ?_⟩
  rw [← hsafe.msgs]
  obtain ⟨l, hp, hs⟩ := hsub
  exact ⟨l.map _, hp.map _, hs.map _⟩

-- one of four signers is bad: it signs a payment of its own, which is refused, and a withdrawal
def g3 : St := start [1, 2, 3, 4] all

def bad1 : Addr → Bool := fun a => decide (a = 1001)

def theft : Req := ⟨⟨.main, 5, 500, 666, none, 10, .xrp 1000000⟩, [], 0⟩

def attack : List Op :=
  [.x (.withdraw 5 2 900 800 none), .relay theft [1001], .relay pay [1001, 1002, 1003], .relay pay [1001, 1002, 1003]]

example : Reach c0 (Fair c0 bad1) g3 (exec c0 g3 attack) ∧ Sound bad1 g3.xl 500 ∧ Sound bad1 g3.xl 600 ∧
    (exec c0 g3 attack).xl.applied = [pay] :=
  ⟨exec_reach _ (.init (start_genesis _ _ (by decide) (fun a h => by rcases h with rfl | rfl <;> decide))) (by decide +kernel),
    by unfold Sound; decide +kernel, by unfold Sound; decide +kernel, by decide +kernel⟩

/-- C197, partial: where an account has three signers or more, more than half of them have signed what is carried out.
Missing: `C197_half_refuted`, with two signers one is enough. -/
theorem C197_majority_partial {c : Cfg} {bad : Addr → Bool} {g s : St} {a : Addr} (hD : Sound bad g.xl a)
    (h : Reach c (Fair c bad) g s) {r : Req} {who : List Addr} {X' : Xl} (ha : r.msg.src = a)
    (hr : relay s.xl r who = .ok X') (h3 : 3 ≤ (s.xl.acct a).list.length) :
    who.Nodup ∧ (∀ b ∈ who, b ∈ (s.xl.acct a).list) ∧ (s.xl.acct a).list.length < 2 * who.length := by
  have hsafe : Safe bad (fun b => decide (b = a)) s :=
    h.safe (fun _ _ h => h) (fun b hb => (of_decide_eq_true hb) ▸ hD)
  obtain ⟨-, hq, -⟩ := hsafe.few a (by simp)
  obtain ⟨h1, h2, h4, _⟩ := relay_ok hr
  subst ha
  exact ⟨h1, h2, by omega⟩

example : (relay (exec c0 g3 attack).xl { theft with msg := { theft.msg with ticket := 7 } } [1001, 1002, 1004]).isOk = true ∧
    3 ≤ ((exec c0 g3 attack).xl.acct 500).list.length := by decide +kernel

/-- Two validators, one of them bad. -/
def g4 : St := start [1, 2] all

/-- C197 does not hold with two signers: the quorum the chain asks for is one, so half of the signers, a single one, can take
the money of the door account. -/
theorem C197_half_refuted : Reach c0 (Honest c0 bad1) g4 (exec c0 g4 [.relay theft [1001]]) ∧
    (exec c0 g4 [.relay theft [1001]]).xl.applied = [theft] ∧ (exec c0 g4 [.relay theft [1001]]).requests = [] ∧
    g4.xrpl = [1, 2] :=
  ⟨exec_reach _ (.init (start_genesis _ _ (by decide) (fun a h => by rcases h with rfl | rfl <;> decide))) (by decide +kernel),
    by decide +kernel, by decide +kernel, by decide +kernel⟩

end Verif.Door
