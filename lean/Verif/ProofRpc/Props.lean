import Verif.ProofRpc.Inv

/-! # C207, C208: the proofs that nodes hand to relayers -/

namespace Verif.ProofRpc

open Witness (Chain Wit Proof Signed SI CI PosSt authIndex)

/-! ## Keys of the database -/

/-- Different proofs are stored under different keys. -/
theorem proofKey_inj {ch ch' : Chain} {e e' : Nat} (he : e < 2 ^ 64) (he' : e' < 2 ^ 64) (h : proofKey ch e = proofKey ch' e') :
    ch = ch' ∧ e = e' := by
  unfold proofKey at h
  simp only [List.cons_append, List.nil_append, List.cons.injEq, true_and] at h
  obtain ⟨h1, h2⟩ := h
  constructor
  · cases ch <;> cases ch' <;> first | rfl | exact absurd h1 (by decide)
  · have := congrArg Abi.ofBe h2
    rwa [Abi.ofBe_be 8 e (by norm_num at he ⊢; exact he), Abi.ofBe_be 8 e' (by norm_num at he' ⊢; exact he')] at this

/-- What is found under the key of an event is the proof of that event. -/
theorem found {c : Cfg} {s : St} (h : NI c s) {ch : Chain} {e : Nat} (he : e < 2 ^ 64) {t : Stored}
    (ht : s.db (proofKey ch e) = some t) : ∃ p ∈ s.rcd.proofs, ∃ b, p.chain = ch ∧ p.event = e ∧ s.req e = some (b, ch, p.data) ∧
      t = ⟨e, b, p.sigs⟩ ∧ p.vals = (c.vals b).keys ∧ p.xvals = (c.xrpl b).keys ∧ p.need = need c b ch := by
  obtain ⟨p, hp, b, hk, hq, rfl⟩ := h.db _ _ ht
  obtain ⟨b', h1, h2, h3, h4, h5⟩ := h.proofs p hp
  rw [hq] at h1
  cases h1
  obtain ⟨rfl, rfl⟩ := proofKey_inj he h5 hk
  exact ⟨p, hp, b, rfl, rfl, hq, rfl, h2, h3, h4⟩

/-! ## C207: Ethereum -/

/-- **C207, Ethereum, in part** — the proof a relayer gets for an event shows the validators of the block that asked for it, and a
signature or a blank for each of them: at least the threshold of positions hold a signature of the validator at that position for
the message that was asked for, all others are blank. In calm histories (see `C207_change_refuted`). -/
theorem C207_ethereum_partial {c : Cfg} {s : St} (h : Reach c (Calm c) s) {e : Nat} (he : e < 2 ^ 64) {r : EthResp}
    (hr : getEventProof c s e = some r) : r.event = e ∧ ∃ data, s.req e = some (r.block, .ethereum, data) ∧
      r.setId = (c.vals r.block).id ∧ r.validators = (c.vals r.block).keys.map c.addr ∧
      r.sigs.length = (c.vals r.block).keys.length ∧
      ∃ good : List Nat, good.Pairwise (· < ·) ∧ (c.vals r.block).thr ≤ good.length ∧
        (∀ i ∈ good, ∃ a sig d, (c.vals r.block).keys[i]? = some a ∧ r.sigs[i]? = some sig ∧
          c.crypto.digestOf .ethereum data a = some d ∧ c.crypto.verify a sig d = true) ∧
        (∀ i, i ∉ good → i < r.sigs.length → r.sigs[i]? = some 0) := by
  have hn := h.ni
  unfold getEventProof at hr
  rw [Option.bind_eq_some_iff] at hr
  obtain ⟨t, ht, hr⟩ := hr
  obtain ⟨p, hp, b, h1, h2, h3, rfl, h4, h5, h6⟩ := found hn he ht
  unfold ethResponse at hr
  split at hr
  · cases hr
  cases hr
  obtain ⟨k1, k2, _⟩ := hn.si.proofs p hp
  have k3 := hn.ei.proofs p hp
  have hlen : (Witness.expanded p.sigs (c.vals b).keys.length).length = (c.vals b).keys.length := by
    unfold Witness.expanded
    rw [Witness.fill_length, List.length_replicate]
  have hidx : ∀ q ∈ p.sigs, ∃ a d, (c.vals b).keys[q.1]? = some a ∧ c.crypto.digestOf .ethereum p.data a = some d ∧
      c.crypto.verify a q.2 d = true := by
    intro q hq
    obtain ⟨a, d, g1, g2, g3⟩ := k3 q hq
    rw [h4] at g3
    rw [h1] at g1
    exact ⟨a, d, Witness.authIndex_some g3, g1, g2⟩
  refine ⟨rfl, p.data, h3, rfl, rfl, hlen, p.sigs.map Prod.fst, List.pairwise_map.mpr k1, ?_, ?_, ?_⟩
  · rw [h1, h6] at k2
    rw [List.length_map]
    exact k2
  · intro i hi
    obtain ⟨q, hq, rfl⟩ := List.mem_map.mp hi
    obtain ⟨a, d, g1, g2, g3⟩ := hidx q hq
    have hlt : q.1 < (c.vals b).keys.length := by
      have := List.getElem?_eq_some_iff.mp g1
      exact this.1
    exact ⟨a, q.2, d, g1, Witness.fill_mem _ _ _ _ (List.length_replicate ..) k1 hq hlt, g2, g3⟩
  · intro i hi hlt
    dsimp only at hlt ⊢
    rw [hlen] at hlt
    unfold Witness.expanded
    rw [Witness.fill_other _ _ _ (by
      rintro ⟨x, y⟩ hq rfl
      exact hi (List.mem_map.mpr ⟨_, hq, rfl⟩)), List.getElem?_replicate, if_pos hlt]

/-! ## C207: XRPL -/

/-- The signers and signatures of a response as one list. -/
def pairs (c : Cfg) (v x : VSet) (l : List (Nat × Nat)) : List (Nat × Nat) :=
  l.filterMap (fun q => (xrplSigner v x q).map (fun a => (a, c.der q.2)))

theorem pairs_fst (c : Cfg) (v x : VSet) : ∀ l, (pairs c v x l).map Prod.fst = l.filterMap (xrplSigner v x)
  | [] => rfl
  | q :: l => by
    unfold pairs
    rw [List.filterMap_cons, List.filterMap_cons]
    cases xrplSigner v x q with
    | none => exact pairs_fst c v x l
    | some a =>
      rw [Option.map_some, List.map_cons]
      exact congrArg _ (pairs_fst c v x l)

theorem pairs_snd (c : Cfg) (v x : VSet) : ∀ l, (pairs c v x l).map Prod.snd =
    (l.filter (fun q => (xrplSigner v x q).isSome)).map (fun q => c.der q.2)
  | [] => rfl
  | q :: l => by
    unfold pairs
    rw [List.filterMap_cons, List.filter_cons]
    cases xrplSigner v x q with
    | none => exact pairs_snd c v x l
    | some a =>
      rw [Option.map_some, List.map_cons]
      exact congrArg _ (pairs_snd c v x l)

theorem zip_fst_snd {α β : Type} : ∀ l : List (α × β), (l.map Prod.fst).zip (l.map Prod.snd) = l
  | [] => rfl
  | (a, b) :: l => by
    rw [List.map_cons, List.map_cons, List.zip_cons_cons, zip_fst_snd l]

theorem xrplSigner_some {v x : VSet} {q : Nat × Nat} {a : Nat} : xrplSigner v x q = some a ↔
    v.keys[q.1]? = some a ∧ a ∈ x.keys := by
  unfold xrplSigner
  cases v.keys[q.1]? with
  | none => simp
  | some b =>
    simp only [Witness.authIndex_isSome, decide_eq_true_eq, Option.some.injEq]
    constructor
    · intro h
      split at h
      · cases h; exact ⟨rfl, by assumption⟩
      · cases h
    · rintro ⟨rfl, h⟩
      rw [if_pos h]

/-- **C207, XRPL, in part** — the proof a relayer gets for an XRPL transaction names different signers, each one of the XRPL
signers of the block that asked for it, with as many signatures, at least the threshold; and each signature is by the signer at
its position for the transaction that was asked for. In calm histories (see `C207_signers_refuted`). -/
theorem C207_xrpl_partial {c : Cfg} {s : St} (h : Reach c (Calm c) s) {e : Nat} (he : e < 2 ^ 64) {r : XrplResp}
    (hr : getXrplProof c s e = some r) : r.event = e ∧ ∃ data, s.req e = some (r.block, .xrpl, data) ∧
      r.setId = (c.xrpl r.block).id ∧ r.sigs.length = r.signers.length ∧ (c.xrpl r.block).thr ≤ r.signers.length ∧
      r.signers.Nodup ∧ ∀ q ∈ r.signers.zip r.sigs, q.1 ∈ (c.xrpl r.block).keys ∧ ∃ sig d, q.2 = c.der sig ∧
        c.crypto.digestOf .xrpl data q.1 = some d ∧ c.crypto.verify q.1 sig d = true := by
  have hn := h.ni
  unfold getXrplProof at hr
  rw [Option.bind_eq_some_iff] at hr
  obtain ⟨t, ht, hr⟩ := hr
  obtain ⟨p, hp, b, h1, h2, h3, rfl, h4, h5, h6⟩ := found hn he ht
  unfold xrplResponse at hr
  split at hr
  · cases hr
  cases hr
  obtain ⟨k1, k2, _⟩ := hn.si.proofs p hp
  have k3 := hn.ei.proofs p hp
  have hs := pairs_fst c (c.vals b) (c.xrpl b) p.sigs
  have hg := pairs_snd c (c.vals b) (c.xrpl b) p.sigs
  refine ⟨rfl, p.data, h3, rfl, ?_, ?_, ?_, ?_⟩
  · dsimp only
    rw [← hs, ← hg, List.length_map, List.length_map]
  · rw [h1, h6] at k2
    dsimp only
    rw [← hs, List.length_map, ← List.length_map (f := Prod.snd), hg, List.length_map]
    refine le_trans k2 (le_of_eq ?_)
    unfold Witness.support
    dsimp only
    rw [h4, h5]
    congr 1
    apply List.filter_congr
    intro q _
    unfold xrplSigner
    cases (c.vals b).keys[q.1]? with
    | none => rfl
    | some a =>
      dsimp only
      cases (authIndex (c.xrpl b).keys a).isSome <;> rfl
  · dsimp only
    unfold List.Nodup
    rw [List.pairwise_filterMap]
    refine List.Pairwise.imp_of_mem ?_ k1
    intro q q' hq hq' hlt a ha a' ha' haa
    subst haa
    have e1 := (xrplSigner_some.mp ha).1
    have e2 := (xrplSigner_some.mp ha').1
    obtain ⟨x, _, _, _, g3⟩ := k3 q hq
    obtain ⟨y, _, _, _, g4⟩ := k3 q' hq'
    rw [h4] at g3 g4
    rw [Witness.authIndex_some g3] at e1
    rw [Witness.authIndex_some g4] at e2
    cases e1
    cases e2
    rw [g3] at g4
    simp only [Option.some.injEq] at g4
    omega
  · intro q hq
    dsimp only at hq ⊢
    rw [← hs, ← hg, zip_fst_snd] at hq
    unfold pairs at hq
    obtain ⟨q0, hq0, hqq⟩ := List.mem_filterMap.mp hq
    rw [Option.map_eq_some_iff] at hqq
    obtain ⟨a, ha, rfl⟩ := hqq
    obtain ⟨ha1, ha2⟩ := xrplSigner_some.mp ha
    obtain ⟨a', d, g1, g2, g3⟩ := k3 q0 hq0
    rw [h4] at g3
    rw [Witness.authIndex_some g3] at ha1
    cases ha1
    rw [h1] at g1
    exact ⟨ha2, q0.2, d, rfl, g1, g2⟩

/-! ## C207 fails -/

/-- Validators 100 to 400 and XRPL signers 100 to 300 in block 1, others from block 2 on. -/
def cfg1 : Cfg where
  crypto := Witness.cfg0
  vals b := if b < 2 then ⟨[100, 200, 300, 400], 1, 3⟩ else ⟨[500, 600, 700, 100], 2, 3⟩
  xrpl b := if b < 2 then ⟨[100, 200, 300], 1, 2⟩ else ⟨[500, 600, 700], 2, 2⟩
  addr a := a + 7
  der s := s

/-- The same validators throughout; root changes the XRPL signers in block 2. -/
def cfg2 : Cfg where
  crypto := Witness.cfg0
  vals _ := ⟨[100, 200, 300, 400], 1, 3⟩
  xrpl b := if b < 2 then ⟨[100, 200, 300], 1, 2⟩ else ⟨[300, 400], 1, 1⟩
  addr a := a + 7
  der s := s

def start : St where
  rcd := ⟨fun _ => none, fun _ => [], [100, 200, 300, 400], 3, [100, 200, 300], 2, fun _ => [], fun _ => [], [], [], [], []⟩
  setId := 1
  best := 1
  req _ := none
  db _ := none
  pruned _ := false
  told := []

theorem start1 : Genesis cfg1 start :=
  ⟨⟨fun _ => rfl, fun _ => rfl, fun _ => rfl, fun _ => rfl, rfl, rfl, rfl, rfl⟩, ⟨rfl, rfl, rfl, rfl, rfl⟩, fun _ => rfl, fun _ => rfl⟩

theorem start2 : Genesis cfg2 start :=
  ⟨⟨fun _ => rfl, fun _ => rfl, fun _ => rfl, fun _ => rfl, rfl, rfl, rfl, rfl⟩, ⟨rfl, rfl, rfl, rfl, rfl⟩, fun _ => rfl, fun _ => rfl⟩

/-- Any history. -/
abbrev Any : St → Op → Prop := fun _ _ => True

theorem exec_reach {c : Cfg} : ∀ (ops : List Op) {s s' : St}, Reach c Any s → exec c s ops = .ok s' → Reach c Any s'
  | [], _, _, h, e => by cases e; exact h
  | op :: ops, s, s', h, e => by
    unfold exec at e
    rw [bind_ok] at e
    obtain ⟨s1, h1, h2⟩ := e
    exact exec_reach ops (h.step trivial h1) h2

theorem exec_exists {c : Cfg} {s : St} {ops : List Op} (h : Genesis c s) (Q : St → Prop)
    (hq : (match exec c s ops with | .ok s' => Q s' | .error _ => False)) : ∃ s', Reach c Any s' ∧ Q s' := by
  cases he : exec c s ops with
  | ok s' => rw [he] at hq; exact ⟨s', exec_reach ops (.init h) he, hq⟩
  | error _ => rw [he] at hq; exact hq.elim

/-- The witness of `a` for event `e` with message `data`. -/
def vote (e data a : Nat) : Op := .gossip ⟨e, a, data, a + data⟩

def changeOps : List Op :=
  [.request 7 .ethereum 1007 none, vote 7 1007 100, vote 7 1007 200, .enter 2 true, vote 7 1007 700]

/-- **C207 fails** — if the validators change while signatures are collected, a relayer gets a signature at the position of a
validator who did not make it, although as many as needed are shown. -/
theorem C207_change_refuted : ∃ s, Reach cfg1 Any s ∧ ∃ r, getEventProof cfg1 s 7 = some r ∧
    (cfg1.vals r.block).keys[2]? = some 300 ∧ r.sigs[2]? = some 1707 ∧ r.sigs[3]? = some 0 ∧ cfg1.crypto.verify 300 1707 1007 = false :=
  exec_exists (ops := changeOps) start1 _ (by
    show ∃ r, _
    exact ⟨⟨7, [1107, 1207, 1707, 0], [107, 207, 307, 407], 1, 1⟩, by decide +kernel, by decide +kernel, by decide +kernel,
      by decide +kernel, by decide +kernel⟩)

def signersOps : List Op := [.enter 2 false, .request 8 .xrpl 50 none, vote 8 50 100, vote 8 50 200]

/-- **C207 fails** — when root changes the XRPL signers, nodes go on counting the signatures of the old ones until the validators
change. They declare transactions proved, and the proof they hand out has no signature of a signer at all. -/
theorem C207_signers_refuted : ∃ s, Reach cfg2 Any s ∧ ∃ r, getXrplProof cfg2 s 8 = some r ∧ r.sigs = [] ∧ r.signers = [] ∧
    (cfg2.xrpl r.block).thr = 1 ∧ 8 ∈ s.rcd.done :=
  exec_exists (ops := signersOps) start2 _ (by
    show ∃ r, _
    exact ⟨⟨8, [], [], 1, 2⟩, by decide +kernel, by decide +kernel, by decide +kernel, by decide +kernel, by decide +kernel⟩)

end Verif.ProofRpc
