import Verif.Notary.Votes
import Verif.Ethy.Demo

/-! # What the notaries of the bridge guarantee -/

namespace Verif.Notary

open Abi (Byte)

/-! ## Material for the examples -/

/-- Bridge contract 7, three confirmations, topic 9. -/
def c0 : Cfg := ⟨7, 3, 9, 2048⟩

/-- A message from contract 21 to contract 22, sent in transaction 1000. -/
def cl0 : Claim := ⟨1000, 21, 22, [1, 2, 3]⟩

def claim0 : Nat → Claim := fun _ => cl0

/-- A receipt with these logs' data: successful, sent to contract 21, in block 50. -/
def receipt0 (ds : List (List Byte)) : Receipt := ⟨50, ds.map (fun d => ⟨7, [9], d, some 1000⟩), some 1, some 21⟩

/-- A provider with this receipt for transaction 1000 and this latest block. -/
def rpc0 (r : Receipt) (latest : Nat) : Rpc where
  receipt := fun tx => .ok (if tx = 1000 then some r else none)
  block := fun _ => .ok (some ⟨some latest, 5000⟩)
  ethCall := fun _ _ _ => .ok []

/-- A provider that does not answer. -/
def down : Rpc := ⟨fun _ => .error (), fun _ => .error (), fun _ _ _ => .error ()⟩

/-- The message as data of four fields. -/
def old0 : Rpc := rpc0 (receipt0 [fourFields 5 cl0]) 60

/-- The message as the bridge contract emits it, with fee 4. -/
def new0 : Rpc := rpc0 (receipt0 [sendMessage 5 cl0 4]) 60

theorem fits0 : Fits 5 cl0 := ⟨by decide, by decide, by decide, by decide⟩

/-- In this receipt every log is shown. -/
theorem shows0 {ds : List (List Byte)} {d : List Byte} (h : d ∈ ds) {latest : Nat} (hl : 53 ≤ latest) :
    ShowsLog c0 (rpc0 (receipt0 ds) latest) cl0 (receipt0 ds) ⟨7, [9], d, some 1000⟩ :=
  ⟨rfl, ⟨1, rfl, by decide⟩, rfl, List.mem_map.mpr ⟨d, h, rfl⟩, rfl, List.mem_cons_self, rfl, _, rfl, fun _ => ⟨latest, rfl, hl⟩⟩

/-! ## C177: a notary vouches only for what Ethereum shows -/

/-- C177: a vote in favour means that Ethereum, asked through the notary's provider, shows the claim. -/
theorem C177_vouch {c : Cfg} {rpc : Rpc} {id : Nat} {cl : Claim} (h : tryNotarize c rpc id cl = .valid) :
    Shows c rpc id cl := valid_shows h

/-- Non-vacuity. -/
example : tryNotarize c0 old0 5 cl0 = .valid := by decide +kernel

/-- C177: the notaries vouch for at most one claim per Ethereum transaction: nobody gets two claims, or a claim under two
numbers, or with another sender, receiver or message, past them, with one and the same transaction. -/
theorem C177_one_claim {c : Cfg} {rpc rpc' : Rpc} {id id' : Nat} {cl cl' : Claim} (hf : Fits id cl) (hf' : Fits id' cl')
    (htx : cl.txHash = cl'.txHash) (hr : rpc.receipt cl.txHash = rpc'.receipt cl.txHash)
    (h : tryNotarize c rpc id cl = .valid) (h' : tryNotarize c rpc' id' cl' = .valid) : id = id' ∧ cl = cl' := by
  obtain ⟨r, l, h1, _, _, h2, h3, _⟩ := valid_iff.mp h
  obtain ⟨r', l', h1', _, _, h2', h3', _⟩ := valid_iff.mp h'
  rw [← htx, ← hr, h1] at h1'
  cases h1'
  rw [← htx, h2] at h2'
  cases h2'
  obtain ⟨e1, e2, e3, e4⟩ := four_inj hf hf' (h3.symm.trans h3')
  refine ⟨e1, ?_⟩
  cases cl
  cases cl'
  simp_all

/-- C177, end to end: an event whose last submitted claim was challenged is handed to its destination only if Ethereum,
through the provider of some honest notary, shows that claim; provided that notaries who are not honest are always fewer
than the share needed for a verdict. The log is newest first. -/
theorem C177_disputed {c : Cfg} {ec : Ethy.Cfg} {claimOf : Nat → Claim} {honest : Nat → Prop} {prov : Rpc → Prop}
    {s : Ethy.St} (h : Reach c ec claimOf honest prov s) {l1 l2 : List Ethy.Ev} {id x t : Nat}
    (hl : s.log = l1 ++ Ethy.Ev.delivered id x t :: l2) (hd : disputed id l2 = true) :
    ∃ rpc, prov rpc ∧ Shows c rpc id (claimOf x) :=
  h.all.1.done l1 l2 id x t hl hd

/-- The votes the four notaries of the example send, one after the other. -/
def voteAll (c : Cfg) (ec : Ethy.Cfg) (claimOf : Nat → Claim) (s : Ethy.St) : List (Nat × Rpc) → Ethy.St
  | [] => s
  | (key, rpc) :: ks => voteAll c ec claimOf (Ethy.exec ec s ((worker c ec claimOf false rpc s [key]).map toOp)) ks

/-- A worker sends at most one vote. -/
theorem worker_one (c : Cfg) (ec : Ethy.Cfg) (claimOf : Nat → Claim) (paused : Bool) (rpc : Rpc) (s : Ethy.St)
    (keys : List Nat) : worker c ec claimOf paused rpc s keys = [] ∨ ∃ v, worker c ec claimOf paused rpc s keys = [v] := by
  unfold worker
  split
  · exact Or.inl rfl
  · split
    · exact Or.inl rfl
    · unfold eventVotes
      split
      · exact Or.inl rfl
      · cases s.challenges with
        | nil => exact Or.inl rfl
        | cons y ys =>
          simp only [List.take_succ_cons, List.take_zero, List.flatMap_cons, List.flatMap_nil, List.append_nil]
          unfold voteOn
          split
          · exact Or.inl rfl
          · split
            · exact Or.inl rfl
            · exact Or.inr ⟨_, rfl⟩

theorem voteAll_reach {c : Cfg} {ec : Ethy.Cfg} {claimOf : Nat → Claim} {honest : Nat → Prop} {prov : Rpc → Prop} :
    ∀ (ks : List (Nat × Rpc)) {s : Ethy.St}, Reach c ec claimOf honest prov s → (∀ k ∈ ks, prov k.2) →
      Reach c ec claimOf honest prov (voteAll c ec claimOf s ks)
  | [], _, h, _ => h
  | (key, rpc) :: ks, s, h, hp => by
    refine voteAll_reach ks ?_ (fun k hk => hp k (List.mem_cons_of_mem _ hk))
    rcases worker_one c ec claimOf false rpc s [key] with e | ⟨v, e⟩
    · rw [e]; exact h
    · rw [e]
      show Reach c ec claimOf honest prov (match Ethy.step ec s (toOp v) with | .ok s1 => s1 | .error _ => s)
      cases hs : Ethy.step ec s (toOp v) with
      | error _ => exact h
      | ok s1 => exact h.vote (hp _ List.mem_cons_self) (by rw [e]; exact List.mem_cons_self) hs

/-- Operations that are not votes may happen. -/
theorem exec_reach {c : Cfg} {ec : Ethy.Cfg} {claimOf : Nat → Claim} {honest : Nat → Prop} {prov : Rpc → Prop} :
    ∀ (ops : List Ethy.Op) {s : Ethy.St}, Reach c ec claimOf honest prov s →
      (∀ op ∈ ops, (∀ idx id yes, op ≠ .notarize idx id yes) ∧ ∀ ks n, op ≠ .setNotaries ks n) →
      Reach c ec claimOf honest prov (Ethy.exec ec s ops)
  | [], _, h, _ => h
  | op :: ops, s, h, hp => by
    unfold Ethy.exec
    refine exec_reach ops ?_ (fun o ho => hp o (List.mem_cons_of_mem _ ho))
    have hop := hp op List.mem_cons_self
    cases hs : Ethy.step ec s op with
    | error _ => exact h
    | ok s1 =>
      refine h.other (fun idx id yes k e _ => absurd e (hop.1 idx id yes)) hs ?_
      have hf := h.all.2.2
      have hc : s1.valCount = s.valCount := by
        cases op with
        | submitEvent who id cl => obtain ⟨_, _, rfl⟩ := Ethy.doSubmitEvent_ok (Ethy.submitEvent_ok hs).2.2; rfl
        | submitMissing who id cl => obtain ⟨_, _, rfl⟩ := Ethy.doSubmitEvent_ok (Ethy.submitMissing_ok hs).2.2; rfl
        | challenge who id => obtain ⟨_, _, _, _, rfl⟩ := Ethy.submitChallenge_ok hs; rfl
        | notarize idx id yes => exact absurd rfl (hop.1 idx id yes)
        | setRelayer who => obtain ⟨_, rfl⟩ := Ethy.setRelayer_ok hs; rfl
        | depositBond who => obtain ⟨_, _, rfl⟩ := Ethy.depositBond_ok hs; rfl
        | withdrawBond who => obtain ⟨_, _, _, rfl⟩ := Ethy.withdrawBond_ok hs; rfl
        | setPeriod m => simp only [Ethy.step, Except.ok.injEq] at hs; subst hs; rfl
        | removeMissing lo hi => simp only [Ethy.step, Except.ok.injEq] at hs; subst hs; rfl
        | setNotaries keys m => exact absurd rfl (hop.2 keys m)
        | fund who amt => simp only [Ethy.step, Except.ok.injEq] at hs; subst hs; rfl
        | nextBlock =>
          simp only [Ethy.step, Except.ok.injEq] at hs; subst hs
          obtain ⟨pp, mm, e⟩ := Ethy.onInitialize_eq ec s
          rw [e]
          exact (Ethy.loop_kept (s.validAt (s.now + 1)) (Ethy.startLoop s)).valCount
      rw [hc]; exact hf

/-- All four notaries honest. -/
theorem few0 : Few (fun _ => True) 66 4 := by
  intro l _ h
  cases l with
  | nil => decide
  | cons a l => exact absurd trivial (h a List.mem_cons_self)

/-- Claim 100 for event 5 submitted by relayer 1 and challenged by account 2. -/
def sChal : Ethy.St := Ethy.exec Ethy.cfg0 Ethy.g0 Ethy.opsChallenge

theorem sChal_reach {claimOf : Nat → Claim} {prov : Rpc → Prop} :
    Reach c0 Ethy.cfg0 claimOf (fun _ => True) prov sChal := by
  refine exec_reach _ (.init Ethy.genesis_g0 few0) ?_
  simp [Ethy.opsChallenge, Ethy.opsSubmit]

/-- Non-vacuity: a challenged claim that is shown is delivered. -/
example : ∃ s, Reach c0 Ethy.cfg0 claim0 (fun _ => True) (· = old0) s ∧
    ∃ l1 l2, s.log = l1 ++ Ethy.Ev.delivered 5 100 10 :: l2 ∧ disputed 5 l2 = true := by
  refine ⟨Ethy.exec Ethy.cfg0 (voteAll c0 Ethy.cfg0 claim0 sChal [(11, old0), (12, old0), (13, old0)])
      (Ethy.blocks 10), ?_, [], ?_⟩
  · refine exec_reach _ (voteAll_reach _ sChal_reach (by simp)) ?_
    intro op ho
    cases List.eq_of_mem_replicate ho
    simp
  · refine ⟨[.verified 5, .voted 5 13 true, .voted 5 12 true, .voted 5 11 true, .challenged 5 2,
      .submitted 5 100 0 10], ?_, by decide +kernel⟩
    decide +kernel

/-- Non-vacuity: with one dishonest notary out of four the honest ones still suffice. -/
example : Few (fun k => k ≠ 14) 66 4 := by
  intro l hn h
  have hl : l.length ≤ 1 := by
    cases l with
    | nil => simp
    | cons a l =>
      cases l with
      | nil => simp
      | cons b l =>
        have h1 : a = 14 := not_not.mp (h a List.mem_cons_self)
        have h2 : b = 14 := not_not.mp (h b (List.mem_cons_of_mem _ List.mem_cons_self))
        subst h1 h2
        simp at hn
  rcases Nat.le_one_iff_eq_zero_or_eq_one.mp hl with e | e <;> rw [e] <;> decide

/-! ## C178: genuine events survive a challenge -/

/-- C178: what a relayer submits for an event of the bridge contract is read as this event. -/
theorem C178_read {c : Cfg} {id fee : Nat} {cl : Claim} (hf : Fits id cl) (hfee : fee < 2 ^ 256)
    (hd : cl.data.length ≤ c.maxData) : decodeEvent c cl.txHash (sendMessage id cl fee) = some (id, cl) :=
  decode_send hf hfee hd

/-- C178 is false of every genuine event: if the logs of the transaction with the topic the notaries look for are events of
the bridge contract, no notary ever votes for the claim, whatever the provider, the number and the claim. (The notaries
compare with data of four fields; the event has a fifth, the fee.) -/
theorem C178_refuted {c : Cfg} {rpc : Rpc} {id : Nat} {cl : Claim} {r : Receipt}
    (hr : rpc.receipt cl.txHash = .ok (some r))
    (hl : ∀ l ∈ r.logs, c.selector ∈ l.topics → ∃ id' cl' fee, l.data = sendMessage id' cl' fee) :
    tryNotarize c rpc id cl ≠ .valid := by
  intro h
  obtain ⟨r', l, h1, _, _, h2, h3, _⟩ := valid_iff.mp h
  rw [hr] at h1
  cases h1
  obtain ⟨h4, _, h5⟩ := findLog_some h2
  obtain ⟨id', cl', fee, h6⟩ := hl l h4 h5
  exact send_ne_four id' id cl' cl fee (h6.symm.trans h3)

/-- Non-vacuity. -/
example : Sent c0 new0 5 cl0 4 ∧ tryNotarize c0 new0 5 cl0 = .unexpectedData ∧
    decodeEvent c0 1000 (sendMessage 5 cl0 4) = some (5, cl0) :=
  ⟨⟨_, _, shows0 List.mem_cons_self (by decide), rfl⟩, by decide +kernel, by decide +kernel⟩

/-- C178: with honest notaries only, all with a provider showing the event of the bridge contract, the claim read from this
event is declared invalid once challenged, the relayer is dismissed and the relayer's bond paid to the challenger. -/
theorem C178_slashed_refuted :
    ∃ s, Reach c0 Ethy.cfg0 claim0 (fun _ => True) (· = new0) s ∧ Sent c0 new0 5 cl0 4 ∧
      decodeEvent c0 1000 (sendMessage 5 cl0 4) = some (5, claim0 100) ∧
      Ethy.Ev.submitted 5 100 0 10 ∈ s.log ∧ Ethy.Ev.invalid 5 ∈ s.log ∧
      s.relayer = none ∧ s.bond 1 = 0 ∧ s.free 1 = 900 ∧ s.free 2 = 1100 ∧ s.claims 5 = none := by
  refine ⟨voteAll c0 Ethy.cfg0 claim0 sChal [(11, new0), (12, new0)], voteAll_reach _ sChal_reach (by simp),
    ⟨_, _, shows0 List.mem_cons_self (by decide), rfl⟩, ?_⟩
  refine ⟨?_, ?_, ?_, ?_, ?_, ?_, ?_, ?_⟩ <;> decide +kernel

/-- C178 is false even for claims that are shown in the format the notaries want: an unanswered question is a vote against
the claim, and final. Two of four notaries whose providers are down are enough. -/
theorem C178_outage_refuted :
    (∀ (c : Cfg) (rpc : Rpc) (id : Nat) (cl : Claim), rpc.receipt cl.txHash = .error () →
      tryNotarize c rpc id cl = .dataProviderErr) ∧
    ∃ s, Reach c0 Ethy.cfg0 claim0 (fun _ => True) (fun p => p = old0 ∨ p = down) s ∧ Shows c0 old0 5 cl0 ∧
      Ethy.Ev.invalid 5 ∈ s.log ∧ s.relayer = none ∧ s.bond 1 = 0 := by
  refine ⟨?_, voteAll c0 Ethy.cfg0 claim0 sChal [(11, old0), (12, old0), (13, down), (14, down)],
    voteAll_reach _ sChal_reach (by simp), ⟨_, _, shows0 List.mem_cons_self (by decide), rfl⟩, ?_, ?_, ?_⟩
  · intro c rpc id cl h
    unfold tryNotarize
    rw [h]
  all_goals decide +kernel

/-- C178: asked too early is the same: the votes say "not enough confirmations", and when there are enough the claim is
already condemned. -/
theorem C178_early_refuted :
    ∃ s, Reach c0 Ethy.cfg0 claim0 (fun _ => True) (fun p => ∃ n, p = rpc0 (receipt0 [fourFields 5 cl0]) n) s ∧
      Shows c0 (rpc0 (receipt0 [fourFields 5 cl0]) 53) 5 cl0 ∧
      tryNotarize c0 (rpc0 (receipt0 [fourFields 5 cl0]) 52) 5 cl0 = .notEnoughConfirmations ∧
      tryNotarize c0 (rpc0 (receipt0 [fourFields 5 cl0]) 53) 5 cl0 = .valid ∧
      Ethy.Ev.invalid 5 ∈ s.log ∧ s.relayer = none ∧ s.bond 1 = 0 := by
  refine ⟨voteAll c0 Ethy.cfg0 claim0 sChal [(11, rpc0 (receipt0 [fourFields 5 cl0]) 52),
      (12, rpc0 (receipt0 [fourFields 5 cl0]) 52)], voteAll_reach _ sChal_reach (by simp),
    ⟨_, _, shows0 List.mem_cons_self (by decide), rfl⟩, ?_⟩
  refine ⟨?_, ?_, ?_, ?_, ?_⟩ <;> decide +kernel

/-- Two messages sent in one transaction. -/
def twice : Rpc := rpc0 (receipt0 [fourFields 5 cl0, fourFields 6 cl0]) 60

/-- C178: of two messages sent in one transaction the second is always condemned: whatever the claims, if the first log with
the topic is for another number, the vote is against. -/
theorem C178_second_refuted :
    (∀ (c : Cfg) (rpc : Rpc) (id id' : Nat) (cl cl' : Claim) (r : Receipt) (l : Log), Fits id cl → Fits id' cl' →
      rpc.receipt cl.txHash = .ok (some r) → findLog c cl.txHash r = some l → l.data = fourFields id' cl' → id ≠ id' →
      tryNotarize c rpc id cl ≠ .valid) ∧
    Shows c0 twice 5 cl0 ∧ Shows c0 twice 6 cl0 ∧ tryNotarize c0 twice 5 cl0 = .valid ∧
    tryNotarize c0 twice 6 cl0 = .unexpectedData := by
  refine ⟨?_, ⟨_, _, shows0 List.mem_cons_self (by decide), rfl⟩,
    ⟨_, _, shows0 (List.mem_cons_of_mem _ List.mem_cons_self) (by decide), rfl⟩, by decide +kernel, by decide +kernel⟩
  intro c rpc id id' cl cl' r l hf hf' hr hl hd hne h
  obtain ⟨r', l', h1, _, _, h2, h3, _⟩ := valid_iff.mp h
  rw [hr] at h1
  cases h1
  rw [hl] at h2
  cases h2
  exact hne (four_inj hf hf' (h3.symm.trans hd)).1

/-- C178, the part that holds: a claim shown as data of four fields, in the only log of its transaction with the topic, is
found valid. Missing: the events the bridge contract emits, and the cases refuted above. -/
theorem C178_partial {c : Cfg} {rpc : Rpc} {id : Nat} {cl : Claim} {r : Receipt} {l : Log} (h : ShowsLog c rpc cl r l)
    (hd : l.data = fourFields id cl)
    (hone : ∀ l' ∈ r.logs, l'.txHash = some cl.txHash → c.selector ∈ l'.topics → l' = l) :
    tryNotarize c rpc id cl = .valid := by
  obtain ⟨st, hst, hst0⟩ := h.status
  obtain ⟨b, hb, hconf⟩ := h.blocks
  have hfind : findLog c cl.txHash r = some l := by
    cases hf : findLog c cl.txHash r with
    | none =>
      unfold findLog at hf
      have h1 := List.find?_eq_none.mp hf l h.log
      simp only [Bool.and_eq_true, decide_eq_true_eq, List.contains_iff_mem] at h1
      exact absurd ⟨h.txHash, h.topic⟩ h1
    | some l' =>
      obtain ⟨h1, h2, h3⟩ := findLog_some hf
      rw [hone l' h1 h2 h3]
  refine valid_iff.mpr ⟨r, l, h.receipt, by rw [hst]; exact hst0, h.to_, hfind, hd, h.address, b, hb, ?_⟩
  by_cases hp : 0 < c.confirmations
  · obtain ⟨n, hn, hle⟩ := hconf hp
    rw [hn]
    simp only [Option.getD_some]
    omega
  · omega

/-- Non-vacuity. -/
example : ShowsLog c0 old0 cl0 (receipt0 [fourFields 5 cl0]) ⟨7, [9], fourFields 5 cl0, some 1000⟩ ∧
    ∀ l' ∈ (receipt0 [fourFields 5 cl0]).logs, l'.txHash = some cl0.txHash → c0.selector ∈ l'.topics →
      l' = ⟨7, [9], fourFields 5 cl0, some 1000⟩ :=
  ⟨shows0 List.mem_cons_self (by decide), fun l' h _ _ => List.mem_singleton.mp h⟩

/-! ## C179: every challenged claim is looked at -/

/-- C179: a worker whose key has voted on the oldest open challenge does nothing, whatever else is open. -/
theorem C179_blocked {c : Cfg} {ec : Ethy.Cfg} {claimOf : Nat → Claim} {paused : Bool} {rpc : Rpc} {s : Ethy.St}
    {keys rest : List Nat} {head : Nat} (hh : s.challenges = head :: rest)
    (hv : ∀ k i, activeKey s.notaryKeys keys = some (k, i) → ∃ yes, (k, yes) ∈ s.votes head) :
    worker c ec claimOf paused rpc s keys = [] := by
  cases hw : worker c ec claimOf paused rpc s keys with
  | nil => rfl
  | cons v vs =>
    exfalso
    unfold worker at hw
    split at hw
    · cases hw
    · rename_i k i hk
      split at hw
      · cases hw
      · unfold eventVotes at hw
        split at hw
        · cases hw
        · rw [hh] at hw
          simp only [List.take_succ_cons, List.take_zero, List.flatMap_cons, List.flatMap_nil, List.append_nil] at hw
          unfold voteOn at hw
          obtain ⟨yes, hy⟩ := hv k i hk
          split at hw
          · cases hw
          · rw [if_pos (List.any_eq_true.mpr ⟨_, hy, by simp⟩)] at hw
            cases hw

/-- Events 5 and 6 submitted and challenged. -/
def opsTwo : List Ethy.Op := Ethy.opsSubmit ++ [.submitEvent 1 6 101, .challenge 2 5, .challenge 2 6]

/-- Notaries 11 and 12 vote for event 5, the provider of notary 13 is down, notary 14 is switched off. -/
def sStuck : Ethy.St :=
  voteAll c0 Ethy.cfg0 claim0 (Ethy.exec Ethy.cfg0 Ethy.g0 opsTwo) [(11, old0), (12, old0), (13, down)]

/-- Whatever happens while notary 14 stays away and the notaries stay the same. -/
inductive After (ec : Ethy.Cfg) (s : Ethy.St) : Ethy.St → Prop where
  | refl : After ec s s
  | step {s1 s2 : Ethy.St} {op : Ethy.Op} : After ec s s1 → (∀ id yes, op ≠ .notarize 3 id yes) →
      (∀ ks n, op ≠ .setNotaries ks n) → Ethy.step ec s1 op = .ok s2 → After ec s s2

/-- The three notaries have voted on event 5, which is first in line. -/
structure Stuck (s : Ethy.St) : Prop where
  keys : s.notaryKeys = [11, 12, 13, 14]
  head : ∃ rest, s.challenges = 5 :: rest
  votes : s.votes 5 = [(11, true), (12, true), (13, false)]

theorem Stuck.frame {s s' : Ethy.St} (h : Stuck s) (hk : s'.notaryKeys = s.notaryKeys)
    (hc : ∃ more, s'.challenges = s.challenges ++ more) (hv : s'.votes = s.votes) : Stuck s' := by
  obtain ⟨rest, hr⟩ := h.head
  obtain ⟨more, hm⟩ := hc
  exact ⟨hk.trans h.keys, ⟨rest ++ more, by rw [hm, hr]; rfl⟩, by rw [hv]; exact h.votes⟩

theorem Stuck.verdict {s s' : Ethy.St} (h : Stuck s) {id : Nat} (hi : id ≠ 5) (hk : s'.notaryKeys = s.notaryKeys)
    (hc : s'.challenges = s.challenges ∨ s'.challenges = s.challenges.erase id)
    (hv : ∀ i, i ≠ id → s'.votes i = s.votes i) : Stuck s' := by
  obtain ⟨rest, hr⟩ := h.head
  refine ⟨hk.trans h.keys, ?_, by rw [hv 5 (Ne.symm hi)]; exact h.votes⟩
  rcases hc with e | e
  · exact ⟨rest, by rw [e, hr]⟩
  · refine ⟨rest.erase id, ?_⟩
    rw [e, hr, List.erase_cons_tail]
    simpa using Ne.symm hi

theorem notarize_challenges {c : Ethy.Cfg} {s s' : Ethy.St} {idx id : Nat} {yes : Bool}
    (h : Ethy.notarize c s idx id yes = .ok s') :
    s'.challenges = s.challenges ∨ s'.challenges = s.challenges.erase id := by
  obtain ⟨key, _, _, _, ⟨_, hi⟩ | ⟨_, hi⟩ | ⟨_, _, rfl⟩⟩ := Ethy.notarize_ok h
  · obtain ⟨_, ⟨_, rfl⟩ | ⟨ch, b, _, _, ⟨_, rfl⟩ | ⟨r, f1, h1, _, _, _, _, rfl⟩⟩⟩ := Ethy.handleInvalid_ok hi <;>
      exact Or.inr rfl
  · obtain ⟨_, ⟨_, rfl⟩ | ⟨r, _, ⟨_, rfl⟩ | ⟨ch, b, _, _, rfl⟩⟩⟩ := Ethy.handleValid_ok hi <;> exact Or.inr rfl
  · exact Or.inl rfl

theorem After.stuck {ec : Ethy.Cfg} {s s' : Ethy.St} (h : After ec s s') (h0 : Stuck s) : Stuck s' := by
  induction h with
  | refl => exact h0
  | @step s1 s2 op _ h3 h4 hs ih =>
    cases op with
    | submitEvent who id cl =>
      obtain ⟨_, _, rfl⟩ := Ethy.doSubmitEvent_ok (Ethy.submitEvent_ok hs).2.2; exact ih.frame rfl ⟨[], by simp⟩ rfl
    | submitMissing who id cl =>
      obtain ⟨_, _, rfl⟩ := Ethy.doSubmitEvent_ok (Ethy.submitMissing_ok hs).2.2; exact ih.frame rfl ⟨[], by simp⟩ rfl
    | challenge who id => obtain ⟨_, _, _, _, rfl⟩ := Ethy.submitChallenge_ok hs; exact ih.frame rfl ⟨[id], rfl⟩ rfl
    | notarize idx id yes =>
      have hs : Ethy.notarize ec s1 idx id yes = .ok s2 := hs
      have hf := Ethy.notarize_frame hs
      have hi : id ≠ 5 := by
        rintro rfl
        obtain ⟨key, hk, hv, _⟩ := Ethy.notarize_ok hs
        rw [ih.keys] at hk
        rw [ih.votes] at hv
        match idx, hk with
        | 0, hk => cases hk; exact hv _ List.mem_cons_self rfl
        | 1, hk => cases hk; exact hv (12, true) (by simp) rfl
        | 2, hk => cases hk; exact hv (13, false) (by simp) rfl
        | 3, _ => exact h3 5 yes rfl
        | n + 4, hk => cases hk
      exact ih.verdict hi hf.2.2.2.2.2.1 (notarize_challenges hs) (fun i hi => (hf.2.2.2.2.2.2.2.2.2 i hi).2.1)
    | setRelayer who => obtain ⟨_, rfl⟩ := Ethy.setRelayer_ok hs; exact ih.frame rfl ⟨[], by simp⟩ rfl
    | depositBond who => obtain ⟨_, _, rfl⟩ := Ethy.depositBond_ok hs; exact ih.frame rfl ⟨[], by simp⟩ rfl
    | withdrawBond who => obtain ⟨_, _, _, rfl⟩ := Ethy.withdrawBond_ok hs; exact ih.frame rfl ⟨[], by simp⟩ rfl
    | setPeriod m =>
      simp only [Ethy.step, Except.ok.injEq] at hs; subst hs; exact ih.frame rfl ⟨[], by simp⟩ rfl
    | removeMissing lo hi =>
      simp only [Ethy.step, Except.ok.injEq] at hs; subst hs; exact ih.frame rfl ⟨[], (List.append_nil _).symm⟩ rfl
    | setNotaries keys m => exact absurd rfl (h4 keys m)
    | fund who amt =>
      simp only [Ethy.step, Except.ok.injEq] at hs; subst hs; exact ih.frame rfl ⟨[], by simp⟩ rfl
    | nextBlock =>
      simp only [Ethy.step, Except.ok.injEq] at hs; subst hs
      obtain ⟨pp, mm, e⟩ := Ethy.onInitialize_eq ec s1
      rw [e]
      have hk := Ethy.loop_kept (s1.validAt (s1.now + 1)) (Ethy.startLoop s1)
      exact ih.frame hk.notaryKeys ⟨[], by rw [List.append_nil]; exact hk.challenges⟩ hk.votes

/-- C179 is false: with one notary of four switched off and one vote against event 5 (the provider was down), no notary ever
looks at event 6 or any later challenge: in every continuation in which the notaries stay the same and the fourth stays
away, the workers of the other three send nothing, whatever their providers show, although event 6 is challenged. -/
theorem C179_refuted : Reach c0 Ethy.cfg0 claim0 (fun _ => True) (fun p => p = old0 ∨ p = down) sStuck ∧
    6 ∈ sStuck.challenges ∧ sStuck.claims 6 = some 101 ∧ sStuck.status 6 = some .challenged ∧ sStuck.votes 6 = [] ∧
    ∀ (s : Ethy.St) (c : Cfg) (claimOf : Nat → Claim) (rpc : Rpc) (paused : Bool) (key : Nat),
      After Ethy.cfg0 sStuck s → key ∈ [11, 12, 13] → worker c Ethy.cfg0 claimOf paused rpc s [key] = [] := by
  refine ⟨?_, by decide +kernel, by decide +kernel, by decide +kernel, by decide +kernel, ?_⟩
  · refine voteAll_reach _ (exec_reach _ (.init Ethy.genesis_g0 few0) ?_) (by simp)
    simp [opsTwo, Ethy.opsSubmit]
  · intro s c claimOf rpc paused key ha hk
    have h0 : Stuck sStuck := ⟨by decide +kernel, ⟨[6], by decide +kernel⟩, by decide +kernel⟩
    have h1 := ha.stuck h0
    obtain ⟨rest, hr⟩ := h1.head
    refine C179_blocked hr ?_
    intro k i hki
    obtain ⟨h2, _⟩ := activeKey_some hki
    rw [List.mem_singleton] at h2
    subst h2
    rw [h1.votes]
    simp only [List.mem_cons, List.not_mem_nil, or_false] at hk
    rcases hk with rfl | rfl | rfl
    · exact ⟨true, by simp⟩
    · exact ⟨true, by simp⟩
    · exact ⟨false, by simp⟩

/-- C179, the part that holds: a worker with an active key, enough notaries and an unpaused bridge votes on the oldest open
challenge, once, and at the position of its key. Missing: the other challenges. -/
theorem C179_partial {c : Cfg} {ec : Ethy.Cfg} {claimOf : Nat → Claim} {rpc : Rpc} {s : Ethy.St} {keys rest : List Nat}
    {head x key idx : Nat} (hh : s.challenges = head :: rest) (hx : s.claims head = some x)
    (hk : activeKey s.notaryKeys keys = some (key, idx)) (ht : ec.thr ≤ Ethy.percent s.notaryKeys.length s.valCount)
    (hv : ∀ kv ∈ s.votes head, kv.1 ≠ key) :
    worker c ec claimOf false rpc s keys = [(idx, head, tryNotarize c rpc head (claimOf x))] ∧
      s.notaryKeys[idx]? = some key ∧ key ∈ keys := by
  refine ⟨?_, (activeKey_some hk).2, (activeKey_some hk).1⟩
  unfold worker
  rw [hk]
  dsimp only
  rw [if_neg (by omega)]
  unfold eventVotes
  rw [if_neg (by decide), hh]
  simp only [List.take_succ_cons, List.take_zero, List.flatMap_cons, List.flatMap_nil, List.append_nil]
  unfold voteOn
  rw [hx]
  dsimp only
  rw [if_neg]
  intro ha
  obtain ⟨kv, h1, h2⟩ := List.any_eq_true.mp ha
  exact hv kv h1 (by simpa using h2)

/-- Non-vacuity. -/
example : worker c0 Ethy.cfg0 claim0 false old0 sChal [99, 12] = [(1, 5, .valid)] := by decide +kernel

/-- C179: nothing is voted while the bridge is paused, without an active key, or with too few notaries. -/
theorem C179_silent {c : Cfg} {ec : Ethy.Cfg} {claimOf : Nat → Claim} {paused : Bool} {rpc : Rpc} {s : Ethy.St} {keys : List Nat}
    (h : paused = true ∨ (∀ k ∈ keys, k ∉ s.notaryKeys) ∨ Ethy.percent s.notaryKeys.length s.valCount < ec.thr) :
    worker c ec claimOf paused rpc s keys = [] := by
  unfold worker
  split
  · rfl
  · rename_i k i hk
    split
    · rfl
    · rename_i ht
      rcases h with h | h | h
      · unfold eventVotes
        rw [if_pos h]
      · obtain ⟨h1, h2⟩ := activeKey_some hk
        exact absurd (List.mem_of_getElem? h2) (h k h1)
      · exact absurd h ht

/-! ## C180: the answers to requested Ethereum calls -/

theorem oldest_iff (q : Request) (now latest : Nat) :
    (oldest q now latest ≤ q.tryBlock ∧ q.tryBlock < latest) ↔ (InWindow q now latest ∧ q.tryBlock < latest) := by
  unfold oldest InWindow
  omega

theorem callAt_ok {rpc : Rpc} {q : Request} {n t n' t' : Nat} {d : List Byte} (h : callAt rpc q n t = .ok d n' t') :
    n' = n ∧ t' = t ∧ d.length = 32 ∧ rpc.ethCall q.target q.input n = .ok d := by
  unfold callAt at h
  split at h
  · cases h
  · cases h
  · rename_i b bs hc
    split at h
    · rename_i hl
      cases h
      exact ⟨rfl, rfl, hl, hc⟩
    · cases h

/-- C180: an answer is the 32 bytes the contract returned at the reported block, the reported time is that of the block, and
the block is the requested one if that is acceptable and the latest one otherwise; the latest block is not before the
request. -/
theorem C180_answer {rpc : Rpc} {q : Request} {now n t : Nat} {d : List Byte} (h : tryEthCall rpc q now = .ok d n t) :
    d.length = 32 ∧ rpc.ethCall q.target q.input n = .ok d ∧
    ∃ latest time, rpc.block none = .ok (some ⟨some latest, time⟩) ∧ q.timestamp ≤ time ∧ 0 < latest ∧
      ((InWindow q now latest ∧ q.tryBlock < latest ∧ n = q.tryBlock ∧
          ∃ b, rpc.block (some n) = .ok (some b) ∧ t = min b.time (U64 - 1)) ∨
        (¬ (InWindow q now latest ∧ q.tryBlock < latest) ∧ n = latest ∧ t = time)) := by
  unfold tryEthCall at h
  split at h
  · cases h
  · cases h
  · rename_i b hb
    unfold withLatest at h
    split at h
    · cases h
    · rename_i h1
      split at h
      · cases h
      · rename_i h2
        split at h
        · cases h
        · rename_i L hL
          split at h
          · cases h
          · rename_i h3
            have hT : sat64 b.time = b.time := by
              unfold sat64 at h1 ⊢
              omega
            have hbb : b = ⟨some L, b.time⟩ := by
              cases b
              simp_all
            unfold callFrom at h
            split at h
            · rename_i h4
              rw [oldest_iff] at h4
              split at h
              · cases h
              · cases h
              · rename_i b' hb'
                obtain ⟨rfl, rfl, h5, h6⟩ := callAt_ok h
                exact ⟨h5, h6, L, b.time, by rw [hb, ← hbb], by omega, by omega,
                  Or.inl ⟨h4.1, h4.2, rfl, b', hb', rfl⟩⟩
            · rename_i h4
              rw [oldest_iff] at h4
              obtain ⟨rfl, rfl, h5, h6⟩ := callAt_ok h
              exact ⟨h5, h6, n, b.time, by rw [hb, ← hbb], by omega, by omega, Or.inr ⟨h4, rfl, hT⟩⟩

/-- What an honest provider makes of a request: the call at the requested block if acceptable. -/
theorem from_window {ch : Chain} {L : Nat} {rpc : Rpc} (hf : From ch L rpc) {q : Request} {now : Nat}
    (hw : InWindow q now L) (h1 : sat64 (ch.time L) ≠ U64 - 1) (h2 : q.timestamp ≤ sat64 (ch.time L)) (h3 : 0 < L)
    (h4 : L ≠ U64 - 1) : tryEthCall rpc q now = callAt rpc q q.tryBlock (sat64 (ch.time q.tryBlock)) := by
  unfold tryEthCall
  rw [hf.last]
  simp only [withLatest]
  rw [if_neg h1, if_neg (by omega), if_neg (by omega)]
  unfold callFrom
  by_cases hlt : q.tryBlock < L
  · rw [if_pos ((oldest_iff q now L).mpr ⟨hw, hlt⟩), hf.past _ (by omega)]
  · have he : q.tryBlock = L := by
      have := hw.1
      omega
    rw [if_neg (fun h => hlt h.2), he]

theorem callAt_eq {rpc rpc' : Rpc} {q : Request} {n t : Nat}
    (h : rpc.ethCall q.target q.input n = rpc'.ethCall q.target q.input n) : callAt rpc q n t = callAt rpc' q n t := by
  unfold callAt
  rw [h]

/-- C180: honest notaries agree, whatever latest block and time of day each of them sees, if for each of them the requested
block is acceptable and the latest block not before the request: the call at the requested block. -/
theorem C180_agree {ch : Chain} {L L' : Nat} {rpc rpc' : Rpc} (hf : From ch L rpc) (hf' : From ch L' rpc') {q : Request}
    {now now' : Nat} (hw : InWindow q now L) (hw' : InWindow q now' L')
    (ht : q.timestamp ≤ ch.time L ∧ ch.time L < U64 - 1) (ht' : q.timestamp ≤ ch.time L' ∧ ch.time L' < U64 - 1)
    (hL : 0 < L ∧ L < U64 - 1) (hL' : 0 < L' ∧ L' < U64 - 1) : tryEthCall rpc q now = tryEthCall rpc' q now' := by
  have e : ∀ n, n < U64 - 1 → sat64 n = n := by
    intro n hn
    unfold sat64
    omega
  rw [from_window hf hw (by rw [e _ ht.2]; omega) (by rw [e _ ht.2]; omega) hL.1 (by omega),
    from_window hf' hw' (by rw [e _ ht'.2]; omega) (by rw [e _ ht'.2]; omega) hL'.1 (by omega)]
  exact callAt_eq (by rw [hf.call _ _ _ hw.1, hf'.call _ _ _ hw'.1])

/-- A contract that returns the number of the block. -/
def ch0 : Chain := ⟨fun n => 12 * n, fun _ _ n => Abi.word n⟩

/-- An honest provider of this chain. -/
def from0 (L : Nat) : Rpc where
  receipt := fun _ => .ok none
  block := fun n => .ok (some ⟨some (n.getD L), 12 * n.getD L⟩)
  ethCall := fun _ _ n => .ok (Abi.word n)

theorem from0_from (L : Nat) : From ch0 L (from0 L) := ⟨rfl, fun _ _ => rfl, fun _ _ _ _ => rfl⟩

/-- A request for block `b`, made and queued at time 1200. -/
def req0 (b : Nat) : Request := ⟨[], 21, 1200, 10, b, 1200⟩

/-- Non-vacuity: latest blocks 101 and 104, requested block 99. -/
example : tryEthCall (from0 101) (req0 99) 1210 = .ok (Abi.word 99) 99 1188 ∧
    tryEthCall (from0 104) (req0 99) 1250 = .ok (Abi.word 99) 99 1188 := by decide +kernel

example : InWindow (req0 99) 1210 101 ∧ InWindow (req0 99) 1250 104 := by
  unfold InWindow req0
  decide

/-- C180 is false otherwise: if the requested block is not acceptable, each notary uses the latest block it sees, and honest
notaries one block apart answer differently. -/
theorem C180_refuted : ∃ (ch : Chain) (rpc rpc' : Rpc) (q : Request) (d d' : List Byte),
    From ch 101 rpc ∧ From ch 102 rpc' ∧ d ≠ d' ∧
    tryEthCall rpc q 1230 = .ok d 101 1212 ∧ tryEthCall rpc' q 1230 = .ok d' 102 1224 :=
  ⟨ch0, from0 101, from0 102, req0 50, Abi.word 101, Abi.word 102, from0_from _, from0_from _, by decide +kernel,
    by decide +kernel, by decide +kernel⟩

/-- C180 is false also at the edge of the window: a requested block just acceptable to one honest notary is too old for
another that has seen one more block at the same time, and they answer differently. -/
theorem C180_edge_refuted : ∃ (ch : Chain) (rpc rpc' : Rpc) (q : Request) (d d' : List Byte),
    From ch 111 rpc ∧ From ch 112 rpc' ∧ InWindow q 1210 111 ∧ ¬ InWindow q 1210 112 ∧ d ≠ d' ∧
    tryEthCall rpc q 1210 = .ok d 101 1212 ∧ tryEthCall rpc' q 1210 = .ok d' 112 1344 :=
  ⟨ch0, from0 111, from0 112, req0 101, Abi.word 101, Abi.word 112, from0_from _, from0_from _,
    by unfold InWindow req0; decide, by unfold InWindow req0; decide, by decide +kernel, by decide +kernel,
    by decide +kernel⟩

end Verif.Notary
