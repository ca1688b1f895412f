import Verif.Outbound.Props

/-!
# Handovers, capacity and events (C183–C185)
-/

namespace Verif.Outbound

open Verif Abi

attribute [local irreducible] sendRaw

/-! ## C183: announcements of new validators -/

theorem Hist.origin {c : Cfg} {G : St → Op → Prop} {g s : St} {acts : List Act} {deps : List Erc20Peg.Dep}
    (h : Hist c G g s acts deps) {a : Act} (ha : a ∈ acts) :
    ∃ s0 s1 op, Reach c G g s0 ∧ G s0 op ∧ Outbound.step c s0 op = .ok s1 ∧ a ∈ made c s0 op := by
  induction h with
  | init _ => cases ha
  | @step s s' op acts deps k hop he ih =>
    rcases List.mem_append.mp ha with ha | ha
    · exact ih ha
    · exact ⟨s, s', op, k.reach, hop, he, ha⟩

theorem made_handover {c : Cfg} {s : St} {op : Op} {d n : Nat} {keys : List Nat} (h : Act.handover d keys n ∈ made c s op) :
    op = .handover keys ∧ d = s.contract ∧ n = (s.setId + 1) % U64 := by
  cases op with
  | handover k =>
    simp only [made, List.mem_singleton, Act.handover.injEq] at h
    obtain ⟨h1, h2, h3⟩ := h
    subst h2
    exact ⟨rfl, h1, h3⟩
  | ping who dest => simp [made] at h
  | peg o =>
    simp only [made] at h
    split at h
    · obtain ⟨m, _, e⟩ := List.mem_map.mp h
      cases e
    · cases h
  | nftWithdraw who colls serials dest =>
    simp only [made] at h
    split at h <;> simp at h
  | nftReclaim who b dest =>
    simp only [made] at h
    split at h <;> simp at h
  | event src dst data =>
    simp only [made] at h
    split at h
    · split at h <;> simp at h
    · simp at h
  | nftPallet o => simp [made] at h
  | setNftContract a => simp [made] at h
  | setContract a => simp [made] at h
  | setPaused b => simp [made] at h
  | finalise => simp [made] at h
  | drain i => simp [made] at h

theorem convert_lt {c : Cfg} (hc : CfgOk c) (k : Nat) : convert c k < 2 ^ 160 := by
  unfold convert
  cases h : c.keyAddr k with
  | none => exact Nat.two_pow_pos _
  | some a => exact hc.keys k a h

/-- **C183** — a package from the address of the bridge is the announcement of a change of validators that began in the
history: it is for the contract registered at that time, and whoever reads addresses and a set id in it reads the addresses
the bridge made of the next keys, in order, and the successor of the set id of that time. -/
theorem C183_handover (keccak : List Byte → List Byte) {c : Cfg} {g s : St} (hc : CfgOk c) (h : Reach c (Env c) g s)
    (ht : s.taken ≤ U64) {p : Req} (hp : Package keccak s p) (hs : p.source = c.bridge) :
    ∃ s0 s1 keys, Reach c (Env c) g s0 ∧ step c s0 (.handover keys) = .ok s1 ∧ p.destination = s0.contract ∧
      ∀ addrs n, (∀ x ∈ addrs, x < 2 ^ 160) → n < U64 → (p.message = handoverMsg addrs n ↔
        addrs = keys.map (convert c) ∧ n = (s0.setId + 1) % U64) := by
  obtain ⟨acts, deps, hh⟩ := h.hist
  have hg := (h.inv hc (fun _ _ x => x)).good
  obtain ⟨a, h1, hf, ho, h2, h3, h4⟩ := hp.act hc hg ht
  rw [hs] at h2
  cases a with
  | erc20 d w => exact absurd h2 hc.bridge_peg
  | nft m => exact absurd h2 hc.bridge_nft
  | ping x y z => exact absurd h2.symm ho.2.1
  | pong x y z => exact absurd h2.symm ho.2.1
  | handover d keys n =>
    have hm : Act.handover d keys n ∈ acts := (hh.log hc).subset (List.mem_map_of_mem (f := Prod.snd) h1)
    obtain ⟨s0, s1, op, hr, _, he, ha⟩ := hh.origin hm
    obtain ⟨rfl, hd, hn⟩ := made_handover ha
    refine ⟨s0, s1, keys, hr, he, h3.trans hd, ?_⟩
    intro addrs m hx hm
    have h4 : p.message = handoverMsg (keys.map (convert c)) n := h4
    constructor
    · intro e
      rw [h4] at e
      have hl : (handoverMsg (keys.map (convert c)) n).length ≤ maxEthData := by
        rw [← h4]
        exact hp.fits.message
      obtain ⟨e1, e2⟩ := handover_inj (a := keys.map (convert c)) (b := addrs) (n := n) (m := m) (by
        intro x hx
        obtain ⟨k, _, rfl⟩ := List.mem_map.mp hx
        exact convert_lt hc k) hx hf.2 hm hl e
      exact ⟨e1.symm, by rw [← e2, hn]⟩
    · rintro ⟨rfl, rfl⟩
      rw [h4, hn]

/-- Non-vacuity: set 4 with the addresses of keys 1 and 2 is announced to contract 77. -/
example : (⟨1001, 77, handoverMsg [5001, 5002] 4, 3, 3⟩ : Req) ∈ demo.sent ∧ [1, 2].map (convert c0) = [5001, 5002] :=
  ⟨by decide +kernel, by decide⟩

/-- **C183** (partial) — if all keys are public keys, the announced addresses are theirs. What is missing: nothing obliges a
validator's key to be one. -/
theorem C183_keys_partial {c : Cfg} (keys : List Nat) (hk : ∀ k ∈ keys, ∃ a, c.keyAddr k = some a) :
    (keys.map (convert c)).map some = keys.map c.keyAddr := by
  rw [List.map_map]
  refine List.map_congr_left ?_
  intro k hm
  obtain ⟨a, ha⟩ := hk k hm
  simp [convert, ha]

example : ∀ k ∈ [1, 2, 999], ∃ a, c0.keyAddr k = some a := by
  intro k hk
  have : k < 1000 := by
    simp at hk
    omega
  exact ⟨k + 5000, by simp [c0, this]⟩

def badOps : List Op := [.handover [1, 1000, 2]]

theorem bad_reach : Reach c0 (Env c0) g0 (exec c0 g0 badOps) :=
  exec_reach badOps (.init g0_genesis) ⟨trivial, trivial⟩

/-- **C183** (refuted) — it is not so that only addresses of validators' keys are announced: for bytes that are no public
key the announcement names the zero address, and validators are asked to sign that. -/
theorem C183_keys_refuted : ¬ ∀ (c : Cfg) (g s : St), CfgOk c → Reach c (Env c) g s → s.taken ≤ U64 →
    ∀ p, Package id s p → p.source = c.bridge → ∀ addrs n, (∀ x ∈ addrs, x < 2 ^ 160) → n < U64 →
      p.message = handoverMsg addrs n → ∀ x ∈ addrs, ∃ k, c.keyAddr k = some x := by
  intro h
  have hm : (⟨1001, 77, handoverMsg [5001, 0, 5002] 4, 3, 0⟩ : Req) ∈ (exec c0 g0 (badOps)).sent := by decide +kernel
  have ht : (exec c0 g0 badOps).taken ≤ U64 := by decide +kernel
  have hf := (C181_history id c0_ok bad_reach ht).1 _ hm
  obtain ⟨k, hk⟩ := h c0 g0 _ c0_ok bad_reach ht _ ⟨hf, List.mem_map_of_mem hm, id_clean _ _⟩ rfl
    [5001, 0, 5002] 4 (by decide) (by decide) rfl 0 (by decide)
  simp only [c0] at hk
  split at hk
  · simp at hk
  · cases hk

/-! ## C184: what does not fit -/

/-- A request for this announcement is with the validators or waiting. -/
def Announced (c : Cfg) (s s' : St) (keys : List Nat) : Prop :=
  ∃ r ∈ s'.sent ++ s'.pending, r.id = s.nextId ∧ r.source = c.bridge ∧ r.destination = s.contract ∧
    r.message = handoverMsg (keys.map (convert c)) ((s.setId + 1) % U64)

theorem request_mem (s : St) (r : Req) : ∃ n, { r with setId := n } ∈ (request s r).sent ++ (request s r).pending := by
  unfold request
  split
  · exact ⟨r.setId, List.mem_append_right _ List.mem_cons_self⟩
  · refine ⟨if s.setId > r.setId then s.setId else r.setId, List.mem_append_left _ ?_⟩
    split
    · exact List.mem_cons_self
    · exact List.mem_cons_self

unseal sendRaw in
theorem sendRaw_mem (s : St) (src dst : Nat) (msg : List Byte) (a : Act) (h : msg.length ≤ maxEthData) :
    ∃ n, (⟨src, dst, msg, n, s.nextId⟩ : Req) ∈ (sendRaw s src dst msg a).1.sent ++ (sendRaw s src dst msg a).1.pending := by
  unfold sendRaw
  rw [if_pos h]
  exact request_mem (takeId s) ⟨src, dst, msg, s.setId, s.nextId⟩

unseal sendRaw in
theorem sendRaw_refused (s : St) (src dst : Nat) (msg : List Byte) (a : Act) (h : maxEthData < msg.length) :
    (sendRaw s src dst msg a).1.sent = s.sent ∧ (sendRaw s src dst msg a).1.pending = s.pending ∧
      (sendRaw s src dst msg a).2 = false := by
  unfold sendRaw
  rw [if_neg (by omega)]
  exact ⟨rfl, rfl, rfl⟩

unseal sendRaw in
theorem sendRaw_taken (s : St) (src dst : Nat) (msg : List Byte) (a : Act) (h : msg.length ≤ maxEthData) :
    (sendRaw s src dst msg a).2 = true := by
  unfold sendRaw
  rw [if_pos h]

/-- **C182** — nothing is lost and nothing added: the requests in the name of the ERC-20 peg, with the validators or waiting
for the end of a pause, are exactly the withdrawals the peg has sent, as often as it has sent them. -/
theorem C182_exact {c : Cfg} {g s : St} (hc : CfgOk c) (h : Reach c (Env c) g s) (ht : s.taken ≤ U64) :
    (((s.sent ++ s.pending).filter (fun r => r.source = c.peg)).map (fun r => (r.destination, r.message))).Perm
      (s.peg.outbox.map (fun m => (m.1, erc20Msg m.2))) := by
  have hi := h.inv hc (fun _ _ x => x)
  set f : Nat × Nat × Nat × List Byte → Option (Nat × List Byte) :=
    fun k => if k.2.1 = c.peg then some (k.2.2.1, k.2.2.2) else none with hf
  have hp := (hi.good.perm ht).filterMap f
  rw [List.filterMap_map, List.filterMap_map] at hp
  have e1 : (s.sent ++ s.pending).filterMap (f ∘ key) =
      ((s.sent ++ s.pending).filter (fun r => r.source = c.peg)).map (fun r => (r.destination, r.message)) := by
    induction s.sent ++ s.pending with
    | nil => rfl
    | cons r l ih =>
      by_cases hr : r.source = c.peg
      · rw [List.filterMap_cons_some (b := (r.destination, r.message)) (by simp [hf, key, hr]),
          List.filter_cons_of_pos (by simpa using hr), List.map_cons, ih]
      · rw [List.filterMap_cons_none (by simp [hf, key, hr]), List.filter_cons_of_neg (by simpa using hr), ih]
  have e2 : s.log.filterMap (f ∘ keyOf c) = (s.log.filterMap erc20Of).map (fun m => (m.1, erc20Msg m.2)) := by
    rw [List.map_filterMap]
    refine List.filterMap_congr ?_
    rintro ⟨n, a⟩ hm
    obtain ⟨_, ho, _⟩ := hi.good.acts _ hm
    cases a with
    | erc20 d w => simp [hf, keyOf, erc20Of, Act.source, Act.dest, Act.message]
    | nft m => simp [hf, keyOf, erc20Of, Act.source, hc.peg_nft.symm]
    | ping x y z =>
      have : x ≠ c.peg := ho.2.2.1
      simp [hf, keyOf, erc20Of, Act.source, this]
    | pong x y z =>
      have : x ≠ c.peg := ho.2.2.1
      simp [hf, keyOf, erc20Of, Act.source, this]
    | handover x y z => simp [hf, keyOf, erc20Of, Act.source, hc.bridge_peg]
  rw [e1, e2, hi.out] at hp
  exact hp

/-- Non-vacuity: while the validators change, one withdrawal is with the validators and one waits. -/
example : (exec c0 g0 (demoOps.take 7)).pending.map Req.id = [4] ∧
    (exec c0 g0 (demoOps.take 7)).peg.outbox.length = 2 := by decide +kernel

/-- **C182** — a withdrawal of NFTs that is accepted does what the NFT peg does (see C60–C62) and makes the request that says
so; one that is refused does nothing. Likewise for blocked NFTs. -/
theorem C182_withdraw {c : Cfg} {s s' : St} {who : Acct} {dest : Nat} {x : Except Err (NftPeg.St × NftPeg.Msg)}
    (h : (∃ colls serials, step c s (.nftWithdraw who colls serials dest) = .ok s' ∧
        x = NftPeg.withdraw c.nftCfg s.nft who colls serials dest true) ∨
      ∃ b, step c s (.nftReclaim who b dest) = .ok s' ∧ x = NftPeg.reclaim s.nft who b dest true) :
    ∃ m, x = .ok (s'.nft, m) ∧ ∃ n, (⟨c.nftPeg, m.contract, nftMsg m.groups m.dest, n, s.nextId⟩ : Req) ∈
      s'.sent ++ s'.pending := by
  have key : ∀ r : NftPeg.St × NftPeg.Msg, sendNft c s r = .ok s' → s'.nft = r.1 ∧
      ∃ n, (⟨c.nftPeg, r.2.contract, nftMsg r.2.groups r.2.dest, n, s.nextId⟩ : Req) ∈ s'.sent ++ s'.pending := by
    intro r hr
    unfold sendNft at hr
    obtain ⟨rfl, hl⟩ := send_ok hr
    refine ⟨?_, sendRaw_mem { s with nft := r.1 } c.nftPeg r.2.contract (nftMsg r.2.groups r.2.dest) (.nft r.2) hl⟩
    exact (sendRaw_frame { s with nft := r.1 } c.nftPeg r.2.contract (nftMsg r.2.groups r.2.dest) (.nft r.2)).2.2.2.2.2.2.1
  rcases h with ⟨colls, serials, he, hx⟩ | ⟨b, he, hx⟩
  · simp only [step, nftWithdraw, bind_ok] at he
    obtain ⟨r, hr, he⟩ := he
    obtain ⟨h1, h2⟩ := key r he
    exact ⟨r.2, by rw [hx, hr, h1], h2⟩
  · simp only [step, nftReclaim, bind_ok] at he
    obtain ⟨r, hr, he⟩ := he
    obtain ⟨h1, h2⟩ := key r he
    exact ⟨r.2, by rw [hx, hr, h1], h2⟩

/-- Non-vacuity: the withdrawal of the history is accepted; afterwards the token is gone. -/
example : (step c0 (exec c0 g0 (demoOps.take 4)) (.nftWithdraw 6 [100] [[4]] 66)).toOption.map
    (fun s => Nft.ownerOf s.nft.nft 100 4) = some none := by decide +kernel

/-- **C184** — a change of validators always begins, and pauses the bridge; it is announced exactly when there are at most 97
next validators, and otherwise nothing is sent. -/
theorem C184_handover (c : Cfg) (s : St) (keys : List Nat) :
    ∃ s', step c s (.handover keys) = .ok s' ∧ s'.change = true ∧ (keys.length ≤ 97 → Announced c s s' keys) ∧
      (97 < keys.length → s'.sent = s.sent ∧ s'.pending = s.pending) := by
  refine ⟨_, rfl, rfl, ?_, ?_⟩
  · intro hl
    obtain ⟨n, hn⟩ := sendRaw_mem s c.bridge s.contract (handoverMsg (keys.map (convert c)) ((s.setId + 1) % U64))
      (.handover s.contract keys ((s.setId + 1) % U64)) (by
        rw [handover_length, List.length_map]
        unfold maxEthData
        omega)
    exact ⟨_, hn, rfl, rfl, rfl, rfl⟩
  · intro hl
    obtain ⟨h1, h2, _⟩ := sendRaw_refused s c.bridge s.contract (handoverMsg (keys.map (convert c)) ((s.setId + 1) % U64))
      (.handover s.contract keys ((s.setId + 1) % U64)) (by
        rw [handover_length, List.length_map]
        unfold maxEthData
        omega)
    exact ⟨h1, h2⟩

/-- Non-vacuity: two keys. -/
example : Announced c0 g0 (after c0 g0 (.handover [1, 2])) [1, 2] := by
  refine ⟨⟨1001, 77, handoverMsg [5001, 5002] 4, 3, 0⟩, ?_, rfl, rfl, rfl, ?_⟩
  · decide +kernel
  · decide +kernel

/-- **C184** (refuted) — it is not so that every new set of validators within the limit of the runtime (4096) is announced to
Ethereum before it takes over: with 98 the change goes through, the set id grows, and nothing is ever said. -/
theorem C184_announced_refuted : ¬ ∀ (c : Cfg) (g s s1 s2 : St) (keys : List Nat), CfgOk c → Reach c (Env c) g s →
    keys.length ≤ 4096 → step c s (.handover keys) = .ok s1 → step c s1 .finalise = .ok s2 → s2.setId ≠ s.setId →
    Announced c s s2 keys := by
  intro h
  obtain ⟨s1, h1, _, _, h2⟩ := C184_handover c0 g0 (List.replicate 98 1)
  obtain ⟨e1, e2⟩ := h2 (by simp)
  have hset : s1.setId = 3 := by
    have : s1.setId = g0.setId := by
      cases h1
      exact (sendRaw_frame g0 c0.bridge g0.contract
        (handoverMsg ((List.replicate 98 1).map (convert c0)) ((g0.setId + 1) % U64))
        (.handover g0.contract (List.replicate 98 1) ((g0.setId + 1) % U64))).1
    exact this
  obtain ⟨r, hr, _⟩ := h c0 g0 g0 s1 (finalise s1) (List.replicate 98 1) c0_ok (.init g0_genesis) (by simp) h1 rfl (by
    show (s1.setId + 1) % U64 ≠ 3
    rw [hset]
    decide)
  have hr : r ∈ s1.sent ++ s1.pending := hr
  rw [e1, e2] at hr
  cases hr

/-- What a withdrawal of NFTs weighs: 3 for each collection and 1 for each token. -/
def weight (m : NftPeg.Msg) : Nat := 3 * m.groups.length + (m.groups.map (fun g => g.2.length)).sum

theorem nft_fits (m : NftPeg.Msg) : (nftMsg m.groups m.dest).length ≤ maxEthData ↔ weight m ≤ 95 := by
  rw [nft_length]
  unfold weight maxEthData
  omega

/-- **C184** — a withdrawal of NFTs that the peg allows is accepted exactly when it weighs at most 95. -/
theorem C184_nft (c : Cfg) (s : St) (who : Acct) (colls : List Nat) (serials : List (List Nat)) (dest : Nat)
    {n : NftPeg.St} {m : NftPeg.Msg} (h : NftPeg.withdraw c.nftCfg s.nft who colls serials dest true = .ok (n, m)) :
    (∃ s', step c s (.nftWithdraw who colls serials dest) = .ok s') ↔ weight m ≤ 95 := by
  rw [← nft_fits]
  have e : step c s (.nftWithdraw who colls serials dest) = sendNft c s (n, m) := by
    simp only [step, nftWithdraw, h]
    rfl
  rw [e]
  unfold sendNft send
  constructor
  · rintro ⟨s', hs⟩
    by_contra hl
    rw [(sendRaw_refused _ _ _ _ _ (Nat.lt_of_not_le hl)).2.2] at hs
    cases hs
  · intro hl
    rw [sendRaw_taken _ _ _ _ _ hl]
    exact ⟨_, rfl⟩

/-- Ten collections with seven tokens each arrive. -/
def bigOps : List Op :=
  [.event 500 1004 (nftData [900, 901, 902, 903, 904] (List.replicate 5 [1, 2, 3, 4, 5, 6, 7]) 6),
   .event 500 1004 (nftData [905, 906, 907, 908, 909] (List.replicate 5 [1, 2, 3, 4, 5, 6, 7]) 6)]

def bigColls : List Nat := [100, 1124, 2148, 3172, 4196, 5220, 6244, 7268, 8292, 9316]
def bigSerials : List (List Nat) := List.replicate 10 [1, 2, 3, 4, 5, 6, 7]

theorem big_reach : Reach c0 (Env c0) g0 (exec c0 g0 bigOps) :=
  exec_reach bigOps (.init g0_genesis) ⟨⟨out500, by decide +kernel⟩, ⟨out500, by decide +kernel⟩, trivial⟩

theorem big_allowed : (NftPeg.withdraw c0.nftCfg (exec c0 g0 bigOps).nft 6 bigColls bigSerials 66 true).toOption.map
    (fun r => weight r.2) = some 100 := by decide +kernel

/-- Non-vacuity of `C184_nft`, on the side of success: the withdrawal in the history weighs 4. -/
example : (NftPeg.withdraw c0.nftCfg (exec c0 g0 (demoOps.take 4)).nft 6 [100] [[4]] 66 true).toOption.map
    (fun r => weight r.2) = some 4 := by decide +kernel

/-- **C184** (refuted) — it is not so that every withdrawal within the limits of the NFT peg (ten collections with fifty
tokens each) whose tokens the caller may withdraw is accepted: ten collections with seven tokens each are too much. -/
theorem C184_nft_refuted : ¬ ∀ (c : Cfg) (g s : St), CfgOk c → Reach c (Env c) g s →
    ∀ who colls serials dest n m, NftPeg.withdraw c.nftCfg s.nft who colls serials dest true = .ok (n, m) →
    ∃ s', step c s (.nftWithdraw who colls serials dest) = .ok s' := by
  intro h
  have hk := big_allowed
  cases he : NftPeg.withdraw c0.nftCfg (exec c0 g0 bigOps).nft 6 bigColls bigSerials 66 true with
  | error e =>
    rw [he] at hk
    cases hk
  | ok r =>
    rw [he] at hk
    have hw : weight r.2 = 100 := Option.some.inj hk
    have := (C184_nft c0 _ 6 bigColls bigSerials 66 (n := r.1) (m := r.2) he).mp
      (h c0 g0 _ c0_ok big_reach 6 bigColls bigSerials 66 r.1 r.2 he)
    omega

/-! ## C185: events from Ethereum -/

/-- **C185** — a deposit that Solidity encodes (any bytes may follow) and that is sent to the ERC-20 peg is handled as the
deposit it is: token, amount and beneficiary; a deposit the peg refuses changes nothing. Nothing else is touched. -/
theorem C185_erc20 {c : Cfg} (hc : CfgOk c) (s : St) (src : Nat) {t x b : Nat} (ht : t < 2 ^ 160) (hx : x < 2 ^ 256)
    (hb : b < 2 ^ 160) (rest : List Byte) (hl : (depositData t x b ++ rest).length ≤ maxEthData) :
    step c s (.event src c.peg (depositData t x b ++ rest)) = .ok { s with
      peg := (Erc20Peg.deposit c.pegCfg s.peg src ⟨t, x, b⟩).toOption.getD s.peg } := by
  simp only [step, route]
  rw [if_neg (fun e => hc.echo_peg e.symm), if_pos trivial]
  unfold pegEvent
  have hd : decodeErc20 (depositData t x b ++ rest) = some ⟨t, x, b⟩ := decodeErc20_layout ht hx hb rest hl
  rw [hd]
  dsimp only
  cases Erc20Peg.deposit c.pegCfg s.peg src ⟨t, x, b⟩ with
  | ok p => rfl
  | error e => rfl

/-- Non-vacuity: the deposit of the history, with bytes after it. -/
example : (depositData 600 70 5 ++ [1, 2, 3]).length ≤ maxEthData ∧
    (Erc20Peg.deposit c0.pegCfg g0.peg 10 ⟨600, 70, 5⟩).isOk = true := ⟨by decide +kernel, by decide +kernel⟩

/-- **C185** — likewise a deposit of NFTs: whatever lists of addresses and token ids Solidity encodes, the NFT peg sees these
lists, if the event comes from its contract. -/
theorem C185_nft {c : Cfg} (hc : CfgOk c) (s : St) {as : List Nat} {ids : List (List Nat)} {d : Nat}
    (ha : ∀ a ∈ as, a < 2 ^ 160) (hi : ∀ l ∈ ids, ∀ n ∈ l, n < 2 ^ 256) (hd : d < 2 ^ 160)
    (hla : as.length ≤ u32Max) (hli : ids.length ≤ u32Max) (hll : ∀ l ∈ ids, l.length ≤ u32Max) (rest : List Byte)
    (hl : (nftData as ids d ++ rest).length ≤ maxEthData) :
    step c s (.event s.nft.contract c.nftPeg (nftData as ids d ++ rest)) = .ok { s with
      nft := (NftPeg.onEvent c.nftCfg s.nft (.deposit (some (as, ids, d)))).1 } := by
  obtain ⟨h1, h2⟩ := decodeNft_layout (k := 1) (by norm_num) ha hi hd rest hl hla hli hll
  have h1 : wordAt (nftData as ids d ++ rest) 0 = some 1 := h1
  have h2 : decodeNft (nftData as ids d ++ rest) = some (as, ids, d) := h2
  have he : decodeNftEvent (nftData as ids d ++ rest) = .deposit (some (as, ids, d)) := by
    unfold decodeNftEvent
    rw [h1, h2]
    rfl
  simp only [step, route]
  rw [if_neg (fun e => hc.echo_nft e.symm), if_neg (fun e => hc.peg_nft e.symm), if_pos trivial]
  unfold nftEvent
  rw [if_pos rfl, he, h1]
  rfl

/-- Non-vacuity: the deposit of the history gives two tokens. -/
example : (nftData [900] [[3, 4]] 6).length ≤ maxEthData ∧ Nft.ownerOf
    (NftPeg.onEvent c0.nftCfg g0.nft (.deposit (some ([900], [[3, 4]], 6)))).1.nft 100 4 = some 6 :=
  ⟨by decide +kernel, by decide +kernel⟩

/-- **C185** — whatever the data, an event changes the ERC-20 peg only if it is for the peg and from one of its two
contracts, and the NFT peg only if it is for that peg and from its contract; only an event for the echo pallet makes the
chain say something; validators, pauses and contracts stay as they are. -/
theorem C185_only {c : Cfg} (hc : CfgOk c) {g s s' : St} (h : Reach c (Env c) g s) {src dst : Nat} {data : List Byte}
    (ho : Env c s (.event src dst data)) (he : step c s (.event src dst data) = .ok s') :
    (s'.peg ≠ s.peg → dst = c.peg ∧ (src = s.peg.contract ∨ src = s.peg.rootContract)) ∧
    (s'.nft ≠ s.nft → dst = c.nftPeg ∧ src = s.nft.contract) ∧
    (dst ≠ c.echo → s'.sent = s.sent ∧ s'.pending = s.pending ∧ s'.nextId = s.nextId) ∧
    s'.setId = s.setId ∧ s'.manual = s.manual ∧ s'.change = s.change ∧ s'.contract = s.contract := by
  have hi := h.inv hc (fun _ _ x => x)
  have h1 : s'.peg ≠ s.peg → dst = c.peg ∧ (src = s.peg.contract ∨ src = s.peg.rootContract) := by
    intro hne
    rcases (route_inv hc hi ho.1 he).2 with e | ⟨d, hp, hd, hk⟩
    · exact absurd e hne
    · exact ⟨hp, (deposit_typed hi.peg (decodeErc20_token hd) hk).2.2.2⟩
  refine ⟨h1, ?_⟩
  simp only [step, route] at he
  split at he
  · rename_i hd
    cases he
    rcases echoEvent_cases s src data with e | ⟨n, d, _, _, e⟩
    · rw [e]
      exact ⟨fun k => absurd rfl k, fun k => absurd hd k, rfl, rfl, rfl, rfl⟩
    · rw [e]
      obtain ⟨f1, f2, f3, f4, _, _, f7, _⟩ := sendRaw_frame s src d (echoMsg 1 n d) (.pong src d n)
      exact ⟨fun k => absurd f7 k, fun k => absurd hd k, f1, f2, f3, f4⟩
  · split at he
    · cases he
      have hf : ∃ p, pegEvent c s src data = { s with peg := p } := by
        unfold pegEvent
        split
        · exact ⟨s.peg, rfl⟩
        · split
          · exact ⟨_, rfl⟩
          · exact ⟨s.peg, rfl⟩
      obtain ⟨p, hp⟩ := hf
      rw [hp]
      exact ⟨fun k => absurd rfl k, fun _ => ⟨rfl, rfl, rfl⟩, rfl, rfl, rfl, rfl⟩
    · split at he
      · rename_i hd
        obtain ⟨n, rfl, _, hn⟩ := nftEvent_frame he
        refine ⟨fun k => ⟨hd, ?_⟩, fun _ => ⟨rfl, rfl, rfl⟩, rfl, rfl, rfl, rfl⟩
        by_contra hs
        exact k (hn (fun e => hs e.symm))
      · cases he
        exact ⟨fun k => absurd rfl k, fun _ => ⟨rfl, rfl, rfl⟩, rfl, rfl, rfl, rfl⟩

/-- Non-vacuity: a stranger's deposit is ignored; the contract's is not. -/
example : (after c0 g0 (.event 12 99 (depositData 600 70 5))).peg.accepted = [] ∧
    (after c0 g0 (.event 10 99 (depositData 600 70 5))).peg.accepted = [⟨600, 70, 5⟩] := by decide +kernel

/-- **C185** — an event that is for anyone but the NFT peg, or from anyone but its contract, or that has at least 32 bytes of
data, never aborts the block, whatever its data. -/
theorem C185_alive_partial (c : Cfg) (s : St) (src dst : Nat) (data : List Byte)
    (h : dst ≠ c.nftPeg ∨ src ≠ s.nft.contract ∨ 32 ≤ data.length) : ∃ s', step c s (.event src dst data) = .ok s' := by
  simp only [step, route]
  split
  · exact ⟨_, rfl⟩
  · split
    · exact ⟨_, rfl⟩
    · split
      · rename_i hd
        unfold nftEvent
        split
        · rename_i hs
          have hl : 32 ≤ data.length := by
            rcases h with h | h | h
            · exact absurd hd h
            · exact absurd hs h
            · exact h
          have : (wordAt data 0).isSome = true := by
            unfold wordAt
            rw [if_pos (by omega)]
            rfl
          exact ⟨_, by simp only [bind_ok, ensure_ok, pure_ok]; exact ⟨(), this, rfl⟩⟩
        · exact ⟨_, rfl⟩
      · exact ⟨_, rfl⟩

/-- Non-vacuity: what the contract says of a deposit is long enough. -/
example : g0.nft.contract = 500 ∧ 32 ≤ (nftData [900] [[3, 4]] 6).length := by decide +kernel

/-- **C185** (refuted) — it is not so that no accepted event can abort a block: 31 bytes from the contract of the NFT peg
do. -/
theorem C185_alive_refuted : ¬ ∀ (c : Cfg) (g s : St), CfgOk c → Reach c (Env c) g s → ∀ src dst data,
    Env c s (.event src dst data) → ∃ s', step c s (.event src dst data) = .ok s' := by
  intro h
  obtain ⟨s', hs⟩ := h c0 g0 g0 c0_ok (.init g0_genesis) 500 1004 (List.replicate 31 0) ⟨out500, by decide⟩
  have hk : (step c0 g0 (.event 500 1004 (List.replicate 31 0))).isOk = false := by decide +kernel
  rw [hs] at hk
  cases hk

end Verif.Outbound
