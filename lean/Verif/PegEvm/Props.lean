import Verif.PegEvm.Lemmas
import Verif.Erc20Peg.Effects

/-! # C203, C204: the bridge's contract -/

namespace Verif.PegEvm

open Verif Outbound

attribute [local irreducible] sendRaw

/-! ## C203 The contract acts for its caller, as asked -/

theorem evm_withdraw {c : Erc20Peg.Cfg} {s p : Erc20Peg.St} {who : Acct} {a : AssetId} {x ben : Nat}
    (h : Erc20Peg.step c s (.withdraw who a x ben true) = .ok p) : ∃ t L, s.toErc a = some t ∧
      Erc20Peg.delayFor s s.wdDelay a x = none ∧ s.wdActive = true ∧ Erc20Peg.burnOrTransfer c s.ledger a who x = .ok L ∧
      p = { s with
        ledger := L
        outbox := s.outbox ++ [(Erc20Peg.contractFor c s a, ⟨t, x, ben⟩)] } := by
  simp only [Erc20Peg.step, Erc20Peg.withdraw, bind_ok, ensure_ok, okOr_ok] at h
  obtain ⟨_, _, _, hw, t, ht, hm⟩ := h
  cases hd : Erc20Peg.delayFor s s.wdDelay a x with
  | some d =>
    rw [hd] at hm
    simp only [bind_ok, ensure_ok] at hm
    obtain ⟨_, he, _⟩ := hm
    cases he
  | none =>
    rw [hd] at hm
    simp only [bind_ok, pure_ok] at hm
    obtain ⟨L, hL, rfl⟩ := hm
    exact ⟨t, L, ht, rfl, hw, hL, rfl⟩

/-- What a withdrawal through the contract does to the chain. -/
theorem erc20_chain {c : Cfg} {s s' : Outbound.St} {who : Acct} {a : AssetId} {x ben : Nat}
    (h : Outbound.step c s (.peg (.withdraw who a x ben true)) = .ok s') : ∃ t L, s.peg.toErc a = some t ∧
      Erc20Peg.delayFor s.peg s.peg.wdDelay a x = none ∧ Erc20Peg.burnOrTransfer c.pegCfg s.peg.ledger a who x = .ok L ∧
      s'.peg.ledger = L ∧ s'.nft = s.nft ∧
      s'.log = s.log ++ [(s.nextId, .erc20 (Erc20Peg.contractFor c.pegCfg s.peg a) ⟨t, x, ben⟩)] ∧
      ∃ n, (⟨c.peg, Erc20Peg.contractFor c.pegCfg s.peg a, erc20Msg ⟨t, x, ben⟩, n, s.nextId⟩ : Req) ∈
        s'.sent ++ s'.pending := by
  simp only [Outbound.step, pegOp, bind_ok, pure_ok] at h
  obtain ⟨p, hp, rfl⟩ := h
  obtain ⟨t, L, ht, hd, _, hL, rfl⟩ := evm_withdraw hp
  refine ⟨t, L, ht, hd, hL, ?_⟩
  dsimp only
  rw [List.drop_left, List.foldl_cons, List.foldl_nil]
  unfold sendErc20
  dsimp only
  have hlen : (erc20Msg ⟨t, x, ben⟩).length ≤ maxEthData := by rw [erc20_length]; unfold maxEthData; omega
  generalize hs0 : ({ s with peg := _ } : Outbound.St) = s0
  have f := sendRaw_frame s0 c.peg (Erc20Peg.contractFor c.pegCfg s.peg a) (erc20Msg ⟨t, x, ben⟩)
    (.erc20 (Erc20Peg.contractFor c.pegCfg s.peg a) ⟨t, x, ben⟩)
  have m := sendRaw_mem s0 c.peg (Erc20Peg.contractFor c.pegCfg s.peg a) (erc20Msg ⟨t, x, ben⟩)
    (.erc20 (Erc20Peg.contractFor c.pegCfg s.peg a) ⟨t, x, ben⟩) hlen
  have l := sendRaw_log s0 c.peg (Erc20Peg.contractFor c.pegCfg s.peg a) (erc20Msg ⟨t, x, ben⟩)
    (.erc20 (Erc20Peg.contractFor c.pegCfg s.peg a) ⟨t, x, ben⟩)
  rw [if_pos hlen] at l
  refine ⟨?_, ?_, ?_, ?_⟩
  · rw [f.2.2.2.2.2.1, ← hs0]
  · rw [f.2.2.2.2.2.2.1, ← hs0]
  · rw [l, ← hs0]
  · rw [← hs0] at m ⊢
    exact m

/-- **C203** — `erc20Withdraw`: it takes exactly the amount of the asset from the caller and nothing else, makes one request
to the bridge for the peg contract of the asset that tells it to pay that amount of the token mapped to the asset to the
beneficiary, returns the number of this request and logs it. Static calls and calls with value are refused. -/
theorem C203_erc20 {c : Cfg} {w w' : World} {k : Ctx} {ben addr amount id : Nat}
    (h : erc20Withdraw c w k ben addr amount = .ok (w', id)) : k.isStatic = false ∧ k.value = 0 ∧ ∃ a t n,
      assetAt addr = some a ∧ w.st.peg.toErc a = some t ∧
      Erc20Peg.Debited c.pegCfg w.st.peg.ledger w'.st.peg.ledger a k.caller amount ∧ w'.st.nft = w.st.nft ∧
      (⟨c.peg, Erc20Peg.contractFor c.pegCfg w.st.peg a, erc20Msg ⟨t, amount, ben⟩, n, id⟩ : Req) ∈
        w'.st.sent ++ w'.st.pending ∧
      w'.logs = w.logs ++ [.erc20 id ben addr amount] := by
  obtain ⟨h1, h2, _, a, s, h3, h4, e⟩ := erc20_ok h
  cases e
  obtain ⟨t, L, ht, _, hL, e1, e2, _, n, hn⟩ := erc20_chain h4
  refine ⟨h1, h2, a, t, n, h3, ht, ?_, e2, hn, rfl⟩
  dsimp only
  rw [e1]
  exact Erc20Peg.debited hL

/-- **C203** — a withdrawal to which a delay applies cannot be made through the contract, so none leaves without the delay. -/
theorem C203_delay {c : Cfg} {w : World} {k : Ctx} {ben addr amount d : Nat} {a : AssetId} (ha : assetAt addr = some a)
    (hd : Erc20Peg.Delays w.st.peg w.st.peg.wdDelay a amount d) (r : World × Nat) :
    erc20Withdraw c w k ben addr amount ≠ .ok r := by
  intro h
  obtain ⟨_, _, _, a', s, h3, h4, _⟩ := erc20_ok h
  rw [ha] at h3
  cases h3
  obtain ⟨_, _, _, h5, _⟩ := erc20_chain h4
  rw [Erc20Peg.delayFor_iff.mpr hd] at h5
  cases h5

theorem erc721_chain {c : Cfg} {s s' : Outbound.St} {who : Acct} {ids : List Nat} {serials : List (List Nat)} {ben : Nat}
    (h : Outbound.step c s (.nftWithdraw who ids serials ben) = .ok s') : ∃ m,
      NftPeg.withdraw c.nftCfg s.nft who ids serials ben true = .ok (s'.nft, m) ∧ s'.peg = s.peg ∧
      s'.log = s.log ++ [(s.nextId, .nft m)] ∧
      ∃ n, (⟨c.nftPeg, m.contract, nftMsg m.groups m.dest, n, s.nextId⟩ : Req) ∈ s'.sent ++ s'.pending := by
  have h0 := h
  obtain ⟨m, hm, hn⟩ := C182_withdraw (.inl ⟨ids, serials, h, rfl⟩)
  refine ⟨m, hm, ?_, ?_, hn⟩
  · simp only [Outbound.step, nftWithdraw, bind_ok] at h0
    obtain ⟨r, _, h0⟩ := h0
    unfold sendNft at h0
    obtain ⟨rfl, _⟩ := send_ok h0
    exact (sendRaw_frame { s with nft := r.1 } c.nftPeg r.2.contract (nftMsg r.2.groups r.2.dest) (.nft r.2)).2.2.2.2.2.1
  · simp only [Outbound.step, nftWithdraw, bind_ok] at h0
    obtain ⟨r, hr, h0⟩ := h0
    rw [hr] at hm
    cases hm
    unfold sendNft at h0
    obtain ⟨e, hl⟩ := send_ok h0
    rw [e, sendRaw_log, if_pos hl]

/-- **C203** — `erc721Withdraw`: the caller has to own every token named, none may be locked; exactly these tokens go, and one
request is made to the bridge that tells the NFT contract to pay them, group by group and in the order given, to the
beneficiary; its number is returned and logged, once for every collection. -/
theorem C203_erc721 {c : Cfg} {g w w' : World} (hr : Reach c g w) {k : Ctx} {ben id : Nat} {addrs : List Nat}
    {serials : List (List Nat)} (h : erc721Withdraw c w k ben addrs serials = .ok (w', id)) :
    k.isStatic = false ∧ k.value = 0 ∧ ∃ colls gs n, List.Forall₂ (fun a i => collAt a = some i) addrs colls ∧
      List.Forall₂ (fun i (g : Nat × List Nat) => w.st.nft.toRoot g.1 = some i) colls gs ∧ gs.map Prod.snd = serials ∧
      (⟨c.nftPeg, w.st.nft.contract, nftMsg gs ben, n, id⟩ : Req) ∈ w'.st.sent ++ w'.st.pending ∧
      (∀ i m, NftPeg.Asked colls serials i m → Nft.ownerOf w.st.nft.nft i m = some k.caller ∧
        w.st.nft.nft.locks i m = none ∧ Nft.ownerOf w'.st.nft.nft i m = none) ∧
      (∀ i m, ¬ NftPeg.Asked colls serials i m → Nft.ownerOf w'.st.nft.nft i m = Nft.ownerOf w.st.nft.nft i m) ∧
      w'.st.peg = w.st.peg ∧ addrs.length = serials.length ∧
      w'.logs = w.logs ++ (addrs.zip serials).map (fun g => .erc721 id ben g.1 g.2) := by
  obtain ⟨h1, h2, _, ids, s, h3, h4, e⟩ := erc721_ok h
  cases e
  obtain ⟨m, hm, hp, _, n, hn⟩ := erc721_chain h4
  obtain ⟨⟨gs, rfl, k2, k3⟩, k4, k5, _⟩ := NftPeg.withdraw_effect hr.maps hm
  refine ⟨h1, h2, ids, gs, n, h3, k2, k3, hn, k4, k5, hp, ?_, rfl⟩
  rw [h3.length_eq, k2.length_eq, ← k3, List.length_map]

/-! ## C204 What the logs show is what Ethereum pays -/

/-- A log records a call of the contract, and the request it made is recorded under the number of the log. -/
def Told (c : Cfg) (g : World) (s : Outbound.St) : Log → Prop
  | .erc20 id ben addr amount => ∃ w0 w1 k a t, Reach c g w0 ∧ erc20Withdraw c w0 k ben addr amount = .ok (w1, id) ∧
      assetAt addr = some a ∧ w0.st.peg.toErc a = some t ∧
      (id, Act.erc20 (Erc20Peg.contractFor c.pegCfg w0.st.peg a) ⟨t, amount, ben⟩) ∈ s.log
  | .erc721 id ben addr ns => ∃ w0 w1 k addrs serials i t gs, Reach c g w0 ∧
      erc721Withdraw c w0 k ben addrs serials = .ok (w1, id) ∧ (addr, ns) ∈ addrs.zip serials ∧ collAt addr = some i ∧
      w0.st.nft.toRoot t = some i ∧ (t, ns) ∈ gs ∧ (id, Act.nft ⟨w0.st.nft.contract, gs, ben⟩) ∈ s.log

theorem Told.mono {c : Cfg} {g : World} {s s' : Outbound.St} {l : Log} (h : Told c g s l) (hs : ∀ x ∈ s.log, x ∈ s'.log) :
    Told c g s' l := by
  cases l with
  | erc20 id ben addr amount =>
    obtain ⟨w0, w1, k, a, t, h1, h2, h3, h4, h5⟩ := h
    exact ⟨w0, w1, k, a, t, h1, h2, h3, h4, hs _ h5⟩
  | erc721 id ben addr ns =>
    obtain ⟨w0, w1, k, addrs, serials, i, t, gs, h1, h2, h3, h4, h5, h6, h7⟩ := h
    exact ⟨w0, w1, k, addrs, serials, i, t, gs, h1, h2, h3, h4, h5, h6, hs _ h7⟩

/-- Partners in lists related element by element. -/
theorem group_of {addrs ids : List Nat} {gs : List (Nat × List Nat)} {toRoot : Nat → Option Nat}
    (h1 : List.Forall₂ (fun a i => collAt a = some i) addrs ids)
    (h2 : List.Forall₂ (fun i (g : Nat × List Nat) => toRoot g.1 = some i) ids gs) {addr : Nat} {ns : List Nat}
    (hm : (addr, ns) ∈ addrs.zip (gs.map Prod.snd)) : ∃ i t, collAt addr = some i ∧ toRoot t = some i ∧ (t, ns) ∈ gs := by
  induction h1 generalizing gs with
  | nil => cases hm
  | @cons a i as is ha _ ih =>
    cases h2 with
    | @cons _ g _ gs' hg hgs =>
      rw [List.map_cons, List.zip_cons_cons] at hm
      rcases List.mem_cons.mp hm with e | hm
      · cases e
        exact ⟨i, g.1, ha, hg, List.mem_cons_self⟩
      · obtain ⟨i', t, k1, k2, k3⟩ := ih hgs hm
        exact ⟨i', t, k1, k2, List.mem_cons_of_mem _ k3⟩

theorem Reach.told {c : Cfg} {g w : World} (hc : CfgOk c) (h : Reach c g w) : ∀ l ∈ w.logs, Told c g w.st l := by
  induction h with
  | init hg =>
    rw [hg.logs]
    nofun
  | @step w w' op hr hop he ih =>
    obtain ⟨o, _, ho⟩ := step_st hop he
    obtain ⟨new, hnew, _⟩ := step_new hc ho
    have keep : ∀ l ∈ w.logs, Told c g w'.st l := fun l hl =>
      (ih l hl).mono (fun x hx => by rw [hnew]; exact List.mem_append_left _ hx)
    cases op with
    | erc20 k ben addr amount =>
      obtain ⟨⟨w1, id⟩, hr1, rfl⟩ := NftPeg.map_ok.mp he
      obtain ⟨_, _, _, a, s, h3, h5, e⟩ := erc20_ok hr1
      obtain ⟨t, L, ht, _, _, _, _, hlog, _⟩ := erc20_chain h5
      intro l hl
      have e2 : w1 = ⟨s, w.logs ++ [.erc20 w.st.nextId ben addr amount]⟩ := (Prod.mk.inj e).1
      have e3 : id = w.st.nextId := (Prod.mk.inj e).2
      rw [e2] at hl
      rcases List.mem_append.mp hl with hl | hl
      · exact keep l hl
      · rw [List.mem_singleton] at hl
        subst hl
        rw [← e3]
        refine ⟨w, w1, k, a, t, hr, hr1, h3, ht, ?_⟩
        rw [e2, e3]
        dsimp only
        rw [hlog]
        exact List.mem_append_right _ (List.mem_singleton.mpr rfl)
    | erc721 k ben addrs serials =>
      obtain ⟨⟨w1, id⟩, hr1, rfl⟩ := NftPeg.map_ok.mp he
      obtain ⟨_, _, _, ids, s, h3, h5, e⟩ := erc721_ok hr1
      obtain ⟨m, hm, _, hlog, _⟩ := erc721_chain h5
      obtain ⟨⟨gs, rfl, k2, k3⟩, _⟩ := NftPeg.withdraw_effect hr.maps hm
      intro l hl
      have e2 := (Prod.mk.inj e).1
      have e3 : id = w.st.nextId := (Prod.mk.inj e).2
      dsimp only at hl
      rw [e2] at hl
      rcases List.mem_append.mp hl with hl | hl
      · exact keep l hl
      · obtain ⟨⟨addr, ns⟩, hx, rfl⟩ := List.mem_map.mp hl
        have hx' : (addr, ns) ∈ addrs.zip (gs.map Prod.snd) := by rw [k3]; exact hx
        obtain ⟨i, t, q1, q2, q3⟩ := group_of h3 k2 hx'
        dsimp only
        rw [← e3]
        refine ⟨w, w1, k, addrs, serials, i, t, gs, hr, hr1, hx, q1, q2, q3, ?_⟩
        rw [e2, e3]
        dsimp only
        rw [hlog]
        exact List.mem_append_right _ (List.mem_singleton.mpr rfl)
    | other o =>
      simp only [PegEvm.step, bind_ok, pure_ok] at he
      obtain ⟨s, h1, rfl⟩ := he
      exact keep

/-- An act recorded under a number: there is a request for it, and every package with the number says it. -/
theorem recorded {c : Cfg} {g w : World} (hc : CfgOk c) (h : Reach c g w) (ht : w.st.taken ≤ U64) {id : Nat} {a : Act}
    (hm : (id, a) ∈ w.st.log) : (∃ n, (⟨a.source c, a.dest, a.message c, n, id⟩ : Req) ∈ w.st.sent ++ w.st.pending) ∧
      ∀ (keccak : List Abi.Byte → List Abi.Byte) (p : Req), Package keccak w.st p → p.id = id →
        p.source = a.source c ∧ p.destination = a.dest ∧ p.message = a.message c := by
  have hg := (h.out.inv hc (fun _ _ x => x)).good
  refine ⟨?_, ?_⟩
  · have hk : keyOf c (id, a) ∈ (w.st.sent ++ w.st.pending).map key :=
      (hg.perm ht).symm.subset (List.mem_map_of_mem hm)
    obtain ⟨r, hr, e⟩ := List.mem_map.mp hk
    obtain ⟨r1, r2, r3, r4, r5⟩ := r
    simp only [keyOf, key, Prod.mk.injEq] at e
    obtain ⟨rfl, rfl, rfl, rfl⟩ := e
    exact ⟨r4, hr⟩
  · intro keccak p hp e
    obtain ⟨b, h1, _, _, h2, h3, h4⟩ := hp.act hc hg ht
    have hb : (p.id, b) = (id, a) := by
      have hpw : (w.st.log.map Prod.fst).Nodup := (hg.ids ht).1.imp (fun h => Nat.ne_of_lt h)
      exact List.inj_on_of_nodup_map hpw h1 hm e
    cases hb
    exact ⟨h2, h3, h4⟩

/-- **C204** — every log of an ERC-20 withdrawal stands for a call of the contract with this beneficiary, address and amount.
A request with the number of the log is sent or waits, and any package the notaries can sign under this number tells the
contract of the peg on Ethereum to pay this amount of the token mapped to the asset at the time to this beneficiary. -/
theorem C204_erc20 {c : Cfg} {g w : World} (hc : CfgOk c) (h : Reach c g w) (ht : w.st.taken ≤ U64) {id ben addr amount : Nat}
    (hl : Log.erc20 id ben addr amount ∈ w.logs) : ∃ w0 w1 k a t, Reach c g w0 ∧
      erc20Withdraw c w0 k ben addr amount = .ok (w1, id) ∧ assetAt addr = some a ∧ w0.st.peg.toErc a = some t ∧
      (∃ n, (⟨c.peg, Erc20Peg.contractFor c.pegCfg w0.st.peg a, erc20Msg ⟨t, amount, ben⟩, n, id⟩ : Req) ∈
        w.st.sent ++ w.st.pending) ∧
      ∀ (keccak : List Abi.Byte → List Abi.Byte) (p : Req), Package keccak w.st p → p.id = id →
        p.source = c.peg ∧ p.destination = Erc20Peg.contractFor c.pegCfg w0.st.peg a ∧
        p.message = erc20Msg ⟨t, amount, ben⟩ := by
  obtain ⟨w0, w1, k, a, t, h1, h2, h3, h4, h5⟩ := h.told hc _ hl
  obtain ⟨k1, k2⟩ := recorded hc h ht h5
  exact ⟨w0, w1, k, a, t, h1, h2, h3, h4, k1, k2⟩

/-- **C204** — every log of an NFT withdrawal stands for a part of a call of the contract. A request with the number of the log
is sent or waits, and any package the notaries can sign under this number tells the contract on Ethereum to give the tokens
with these serial numbers of the contract the collection stood for to this beneficiary. -/
theorem C204_erc721 {c : Cfg} {g w : World} (hc : CfgOk c) (h : Reach c g w) (ht : w.st.taken ≤ U64) {id ben addr : Nat}
    {ns : List Nat} (hl : Log.erc721 id ben addr ns ∈ w.logs) : ∃ w0 w1 k addrs serials i t gs, Reach c g w0 ∧
      erc721Withdraw c w0 k ben addrs serials = .ok (w1, id) ∧ (addr, ns) ∈ addrs.zip serials ∧ collAt addr = some i ∧
      w0.st.nft.toRoot t = some i ∧ (t, ns) ∈ gs ∧
      (∃ n, (⟨c.nftPeg, w0.st.nft.contract, nftMsg gs ben, n, id⟩ : Req) ∈ w.st.sent ++ w.st.pending) ∧
      ∀ (keccak : List Abi.Byte → List Abi.Byte) (p : Req), Package keccak w.st p → p.id = id →
        p.source = c.nftPeg ∧ p.destination = w0.st.nft.contract ∧ p.message = nftMsg gs ben := by
  obtain ⟨w0, w1, k, addrs, serials, i, t, gs, h1, h2, h3, h4, h5, h6, h7⟩ := h.told hc _ hl
  obtain ⟨k1, k2⟩ := recorded hc h ht h7
  exact ⟨w0, w1, k, addrs, serials, i, t, gs, h1, h2, h3, h4, h5, h6, k1, k2⟩

/-! ### No withdrawal is logged twice -/

def Log.id : Log → Nat
  | .erc20 id _ _ _ => id
  | .erc721 id _ _ _ => id

theorem foldl_taken {c : Cfg} : ∀ (ms : List (Nat × Erc20Peg.Wd)) (s : Outbound.St), s.taken ≤ (ms.foldl (sendErc20 c) s).taken
  | [], _ => Nat.le_refl _
  | m :: ms, s => by
    have f := (sendRaw_frame s c.peg m.1 (erc20Msg m.2) (.erc20 m.1 m.2)).2.2.2.2.2.2.2
    have := foldl_taken (c := c) ms (sendErc20 c s m)
    rw [List.foldl_cons]
    have e : (sendErc20 c s m).taken = s.taken + 1 := by unfold sendErc20; exact f
    omega

/-- Numbers are never given back. -/
theorem step_taken {c : Cfg} {s s' : Outbound.St} {op : Outbound.Op} (he : Outbound.step c s op = .ok s') :
    s.taken ≤ s'.taken := by
  have raw := fun (s : Outbound.St) a b m x => (sendRaw_frame s a b m x).2.2.2.2.2.2.2
  cases op with
  | ping who dest =>
    simp only [Outbound.step, ping, bind_ok, ensure_ok, pure_ok] at he
    obtain ⟨_, hs, s1, h1, rfl⟩ := he
    obtain ⟨rfl, _⟩ := send_ok h1
    have := raw s who dest (echoMsg 0 s.session dest) (.ping who dest s.session)
    dsimp only
    omega
  | peg o =>
    simp only [Outbound.step, pegOp, bind_ok, pure_ok] at he
    obtain ⟨p, hp, rfl⟩ := he
    exact foldl_taken (c := c) (p.outbox.drop s.peg.outbox.length) { s with peg := p }
  | nftWithdraw who colls serials dest =>
    simp only [Outbound.step, nftWithdraw, bind_ok] at he
    obtain ⟨r, hr, he⟩ := he
    unfold sendNft at he
    obtain ⟨rfl, _⟩ := send_ok he
    have := raw { s with nft := r.1 } c.nftPeg r.2.contract (nftMsg r.2.groups r.2.dest) (.nft r.2)
    dsimp only at this
    omega
  | nftReclaim who b dest =>
    simp only [Outbound.step, nftReclaim, bind_ok] at he
    obtain ⟨r, hr, he⟩ := he
    unfold sendNft at he
    obtain ⟨rfl, _⟩ := send_ok he
    have := raw { s with nft := r.1 } c.nftPeg r.2.contract (nftMsg r.2.groups r.2.dest) (.nft r.2)
    dsimp only at this
    omega
  | nftPallet o =>
    simp only [Outbound.step, bind_ok, pure_ok] at he
    obtain ⟨n, _, rfl⟩ := he
    exact Nat.le_refl _
  | setNftContract a =>
    cases he
    exact Nat.le_refl _
  | setContract a =>
    cases he
    exact Nat.le_refl _
  | setPaused b =>
    cases he
    exact Nat.le_refl _
  | handover keys =>
    cases he
    have := raw s c.bridge s.contract (handoverMsg (keys.map (convert c)) ((s.setId + 1) % U64))
      (.handover s.contract keys ((s.setId + 1) % U64))
    show s.taken ≤ (handleChange c s keys).taken
    unfold handleChange
    dsimp only
    omega
  | finalise =>
    cases he
    exact Nat.le_refl _
  | drain i =>
    simp only [Outbound.step, drain, bind_ok, ensure_ok, okOr_ok, pure_ok] at he
    obtain ⟨_, _, r, _, rfl⟩ := he
    unfold request
    split <;> exact Nat.le_refl _
  | event src dst data =>
    simp only [Outbound.step] at he
    unfold route at he
    split at he
    · cases he
      rcases echoEvent_cases s src data with e | ⟨n, d, _, _, e⟩
      · rw [e]
      · rw [e]
        have := raw s src d (echoMsg 1 n d) (.pong src d n)
        omega
    · split at he
      · cases he
        unfold pegEvent
        split
        · exact Nat.le_refl _
        · split <;> exact Nat.le_refl _
      · split at he
        · obtain ⟨n, rfl, _⟩ := nftEvent_frame he
          exact Nat.le_refl _
        · cases he
          exact Nat.le_refl _

/-- The logs with a number are the ones of one call. -/
def OneCall (c : Cfg) (g : World) (id : Nat) (ls : List Log) : Prop :=
  (∃ w0 w1 k ben addr amount, Reach c g w0 ∧ erc20Withdraw c w0 k ben addr amount = .ok (w1, id) ∧
    ls = [.erc20 id ben addr amount]) ∨
  ∃ w0 w1 k ben addrs serials, Reach c g w0 ∧ erc721Withdraw c w0 k ben addrs serials = .ok (w1, id) ∧
    ls = (addrs.zip serials).map (fun g => .erc721 id ben g.1 g.2)

theorem Told.logged {c : Cfg} {g : World} {s : Outbound.St} {l : Log} (h : Told c g s l) : ∃ a, (l.id, a) ∈ s.log := by
  cases l with
  | erc20 id ben addr amount =>
    obtain ⟨w0, w1, k, a, t, _, _, _, _, h5⟩ := h
    exact ⟨_, h5⟩
  | erc721 id ben addr ns =>
    obtain ⟨w0, w1, k, addrs, serials, i, t, gs, _, _, _, _, _, _, h7⟩ := h
    exact ⟨_, h7⟩

theorem filter_old {old new : List Log} {n : Nat} (ho : ∀ l ∈ old, l.id < n) (hn : ∀ l ∈ new, l.id = n) :
    (∀ l ∈ old, (old ++ new).filter (fun x => x.id = l.id) = old.filter (fun x => x.id = l.id)) ∧
    (old ++ new).filter (fun x => x.id = n) = new := by
  constructor
  · intro l hl
    rw [List.filter_append]
    have : new.filter (fun x => decide (x.id = l.id)) = [] := by
      rw [List.filter_eq_nil_iff]
      intro x hx
      have h1 := ho l hl
      have h2 := hn x hx
      simp only [decide_eq_true_eq]
      omega
    rw [this, List.append_nil]
  · rw [List.filter_append]
    have e1 : old.filter (fun x => decide (x.id = n)) = [] := by
      rw [List.filter_eq_nil_iff]
      intro x hx
      have h1 := ho x hx
      simp only [decide_eq_true_eq]
      omega
    have e2 : new.filter (fun x => decide (x.id = n)) = new := by
      rw [List.filter_eq_self]
      intro x hx
      simp only [decide_eq_true_eq]
      exact hn x hx
    rw [e1, e2, List.nil_append]

/-- Old numbers are below the one of a new request. -/
theorem fresh {c : Cfg} {g w : World} {s : Outbound.St} {a : Act} (hc : CfgOk c) (hr : Reach c g w) (hg : Good c s)
    (ht : s.taken ≤ U64) (hlog : s.log = w.st.log ++ [(w.st.nextId, a)]) : ∀ l ∈ w.logs, l.id < w.st.nextId := by
  intro l hl
  obtain ⟨b, hb⟩ := (hr.told hc l hl).logged
  have hp := (hg.ids ht).1
  rw [hlog, List.map_append, List.pairwise_append] at hp
  exact hp.2.2 l.id (List.mem_map.mpr ⟨_, hb, rfl⟩) w.st.nextId (List.mem_singleton.mpr rfl)

/-- **C204** — all logs with the number of a log were made by one and the same call, none twice. -/
theorem C204_once {c : Cfg} {g w : World} (hc : CfgOk c) (h : Reach c g w) (ht : w.st.taken ≤ U64) {l : Log}
    (hl : l ∈ w.logs) : OneCall c g l.id (w.logs.filter (fun x => x.id = l.id)) := by
  induction h generalizing l with
  | init hg =>
    rw [hg.logs] at hl
    cases hl
  | @step w w' op hr hop he ih =>
    have hw' : Reach c g w' := .step hr hop he
    obtain ⟨o, _, ho⟩ := step_st hop he
    have ht0 : w.st.taken ≤ U64 := Nat.le_trans (step_taken ho) ht
    have hgood := (hw'.out.inv hc (fun _ _ x => x)).good
    cases op with
    | erc20 k ben addr amount =>
      obtain ⟨⟨w1, id⟩, hr1, rfl⟩ := NftPeg.map_ok.mp he
      obtain ⟨_, _, _, a, s, h3, h5, e⟩ := erc20_ok hr1
      obtain ⟨t, L, _, _, _, _, _, hlog, _⟩ := erc20_chain h5
      obtain ⟨rfl, rfl⟩ := Prod.mk.inj e
      obtain ⟨f1, f2⟩ := filter_old (fresh hc hr hgood ht hlog) (new := [.erc20 w.st.nextId ben addr amount])
        (fun x hx => by rw [List.mem_singleton] at hx; rw [hx]; rfl)
      rcases List.mem_append.mp hl with hl | hl
      · dsimp only
        rw [f1 l hl]
        exact ih ht0 hl
      · rw [List.mem_singleton] at hl
        subst hl
        exact .inl ⟨w, _, k, ben, addr, amount, hr, hr1, f2⟩
    | erc721 k ben addrs serials =>
      obtain ⟨⟨w1, id⟩, hr1, rfl⟩ := NftPeg.map_ok.mp he
      obtain ⟨_, _, _, ids, s, h3, h5, e⟩ := erc721_ok hr1
      obtain ⟨m, _, _, hlog, _⟩ := erc721_chain h5
      obtain ⟨rfl, rfl⟩ := Prod.mk.inj e
      have hnew : ∀ x ∈ (addrs.zip serials).map (fun g => Log.erc721 w.st.nextId ben g.1 g.2), x.id = w.st.nextId := by
        intro x hx
        obtain ⟨y, _, rfl⟩ := List.mem_map.mp hx
        rfl
      obtain ⟨f1, f2⟩ := filter_old (fresh hc hr hgood ht hlog) hnew
      rcases List.mem_append.mp hl with hl | hl
      · dsimp only
        rw [f1 l hl]
        exact ih ht0 hl
      · rw [hnew l hl]
        exact .inr ⟨w, _, k, ben, addrs, serials, hr, hr1, f2⟩
    | other o =>
      simp only [PegEvm.step, bind_ok, pure_ok] at he
      obtain ⟨s, h1, rfl⟩ := he
      exact ih ht0 hl

/-! ## Concrete cases -/

def w0 : World := ⟨Outbound.g0, []⟩

theorem w0_genesis : Genesis c0 w0 where
  st := g0_genesis
  nft := NftPeg.genesis_g0.nft
  toRoot := fun _ => rfl
  logs := rfl

/-- The world after trying an operation. -/
def after (w : World) (op : Op) : World :=
  match step c0 w op with
  | .ok w1 => w1
  | .error _ => w

def exec (w : World) : List Op → World
  | [] => w
  | op :: ops => exec (after w op) ops

def Along (w : World) : List Op → Prop
  | [] => True
  | op :: ops => Env c0 w op ∧ Along (after w op) ops

theorem exec_reach {g : World} : ∀ (ops : List Op) {w : World}, Reach c0 g w → Along w ops → Reach c0 g (exec w ops)
  | [], _, h, _ => h
  | op :: ops, w, h, ha => by
    unfold exec
    refine exec_reach ops ?_ ha.2
    unfold after
    cases he : step c0 w op with
    | ok w1 => exact .step h ha.1 he
    | error _ => exact h

/-- The contract of the asset that stands for the token deposited. -/
def assetAddr : Nat := Precompile.encode Precompile.prefix20 7268
/-- The contract of the collection that stands for the NFTs deposited. -/
def collAddr : Nat := Precompile.encode Precompile.prefix721 100

/-- A deposit of 70 of a token, of which 5 are withdrawn through the contract; two NFTs arrive, one is withdrawn through it. -/
def demoOps : List Op :=
  [.other (.event 10 99 (depositData 600 70 5)), .erc20 ⟨5, false, 0⟩ 77 assetAddr 5,
   .other (.event 500 1004 (nftData [900] [[3, 4]] 6)), .erc721 ⟨6, false, 0⟩ 66 [collAddr] [[4]]]

def demo : World := exec w0 demoOps

theorem demo_along : Along w0 demoOps := by
  refine ⟨⟨⟨out10, ?_⟩, trivial⟩, ?_, ⟨⟨out500, ?_⟩, trivial⟩, ?_, trivial⟩
  · decide +kernel
  · show (77 : Nat) < 2 ^ 160
    decide +kernel
  · decide +kernel
  · show (66 : Nat) < 2 ^ 160
    decide +kernel

theorem demo_reach : Reach c0 w0 demo := exec_reach demoOps (.init w0_genesis) demo_along

example : demo.logs = [.erc20 0 77 assetAddr 5, .erc721 1 66 collAddr [4]] ∧ demo.st.taken = 2 ∧
    demo.st.sent.map (fun r => (r.id, r.source, r.message)) =
      [(1, 1004, nftMsg [(900, [4])] 66), (0, 99, erc20Msg ⟨600, 5, 77⟩)] := by decide +kernel

/-- The calls: refused from static calls, with value, for other addresses, for tokens of others, and while a delay applies. -/
example :
    (erc20Withdraw c0 (exec w0 (demoOps.take 1)) ⟨5, false, 0⟩ 77 assetAddr 5).toOption.map Prod.snd = some 0 ∧
    errIs (erc20Withdraw c0 (exec w0 (demoOps.take 1)) ⟨5, true, 0⟩ 77 assetAddr 5)
      "Can't call non-static function in static context" = true ∧
    errIs (erc20Withdraw c0 (exec w0 (demoOps.take 1)) ⟨5, false, 1⟩ 77 assetAddr 5) "Function is not payable" = true ∧
    errIs (erc20Withdraw c0 (exec w0 (demoOps.take 1)) ⟨5, false, 0⟩ 77 collAddr 5) "PEG: Invalid asset address" = true ∧
    (erc20Withdraw c0 (exec w0 (demoOps.take 1)) ⟨5, false, 0⟩ 77 assetAddr 71).isOk = false ∧
    (erc721Withdraw c0 (exec w0 (demoOps.take 3)) ⟨6, false, 0⟩ 66 [collAddr] [[4]]).toOption.map Prod.snd = some 1 ∧
    (erc721Withdraw c0 (exec w0 (demoOps.take 3)) ⟨7, false, 0⟩ 66 [collAddr] [[4]]).isOk = false ∧
    (erc721Withdraw c0 (exec w0 (demoOps.take 3)) ⟨6, false, 0⟩ 66 [collAddr] [[5]]).isOk = false := by decide +kernel

/-- A delay for large withdrawals: through the extrinsic it is scheduled, through the contract refused. -/
def slow : World := exec w0 (demoOps.take 1 ++ [.other (.peg (.setDelay 7268 10 3))])

example : Erc20Peg.Delays slow.st.peg slow.st.peg.wdDelay 7268 10 3 ∧
    (erc20Withdraw c0 slow ⟨5, false, 0⟩ 77 assetAddr 10).isOk = false ∧
    (erc20Withdraw c0 slow ⟨5, false, 0⟩ 77 assetAddr 9).isOk = true ∧
    (Outbound.step c0 slow.st (.peg (.withdraw 5 7268 10 77 false))).isOk = true := by
  refine ⟨⟨by decide +kernel, 10, by decide +kernel, by decide +kernel⟩, ?_, ?_, ?_⟩ <;> decide +kernel

/-- **C204, what does not hold** — that the address in a log is that of the contract of the asset withdrawn: the last twelve
bytes of the address are not looked at and logged as given, so there are 2^96 addresses under which a withdrawal of an asset
may be logged. -/
theorem C204_address_refuted : ¬ ∀ (c : Cfg) (g w : World) (id ben addr amount : Nat), CfgOk c → Reach c g w →
    w.st.taken ≤ U64 → Log.erc20 id ben addr amount ∈ w.logs → ∃ a : AssetId,
      addr = Precompile.encode Precompile.prefix20 a.val := by
  intro h
  have hr : Reach c0 w0 (exec w0 [.other (.event 10 99 (depositData 600 70 5)), .erc20 ⟨5, false, 0⟩ 77 (assetAddr + 1) 5]) :=
    exec_reach _ (.init w0_genesis) ⟨⟨⟨out10, by decide +kernel⟩, trivial⟩,
      (show (77 : Nat) < 2 ^ 160 by decide +kernel), trivial⟩
  obtain ⟨a, ha⟩ := h c0 w0 _ 0 77 (assetAddr + 1) 5 c0_ok hr (by decide +kernel) (by decide +kernel)
  have e : (assetAddr + 1) % 2 = 1 := by decide +kernel
  rw [ha] at e
  unfold Precompile.encode Precompile.prefix20 at e
  omega

end Verif.PegEvm
