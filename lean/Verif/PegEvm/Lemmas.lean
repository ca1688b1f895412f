import Verif.PegEvm.Model

/-! # Steps of the bridge's contract are steps of the chain -/

namespace Verif.PegEvm

open Verif Outbound

theorem erc20_ok {c : Cfg} {w : World} {k : Ctx} {ben addr amount : Nat} {r : World × Nat}
    (h : erc20Withdraw c w k ben addr amount = .ok r) : k.isStatic = false ∧ k.value = 0 ∧ amount < U128 ∧ ∃ a s,
      assetAt addr = some a ∧ Outbound.step c w.st (.peg (.withdraw k.caller a amount ben true)) = .ok s ∧
      r = (⟨s, w.logs ++ [.erc20 w.st.nextId ben addr amount]⟩, w.st.nextId) := by
  simp only [erc20Withdraw, nonPayable, bind_ok, ensure_ok, okOr_ok, pure_ok] at h
  obtain ⟨_, ⟨_, h1, h2⟩, a, h3, _, h4, s, h5, rfl⟩ := h
  exact ⟨h1, h2, h4, a, s, h3, h5, rfl⟩

theorem collsOf_ok : ∀ {as ids : List Nat}, collsOf as = .ok ids → List.Forall₂ (fun a id => collAt a = some id) as ids
  | [], ids, h => by cases h; exact .nil
  | a :: as, ids, h => by
    simp only [collsOf, bind_ok, okOr_ok, pure_ok] at h
    obtain ⟨id, h1, ids', h2, rfl⟩ := h
    exact .cons h1 (collsOf_ok h2)

theorem erc721_ok {c : Cfg} {w : World} {k : Ctx} {ben : Nat} {addrs : List Nat} {serials : List (List Nat)} {r : World × Nat}
    (h : erc721Withdraw c w k ben addrs serials = .ok r) : k.isStatic = false ∧ k.value = 0 ∧
      (∀ ns ∈ serials, ∀ n ∈ ns, n < U32) ∧ ∃ ids s, List.Forall₂ (fun a id => collAt a = some id) addrs ids ∧
      Outbound.step c w.st (.nftWithdraw k.caller ids serials ben) = .ok s ∧
      r = (⟨s, w.logs ++ (addrs.zip serials).map (fun g => .erc721 w.st.nextId ben g.1 g.2)⟩, w.st.nextId) := by
  simp only [erc721Withdraw, nonPayable, bind_ok, ensure_ok, pure_ok] at h
  obtain ⟨_, ⟨_, h1, h2⟩, ids, h3, _, _, _, h4, _, _, s, h5, rfl⟩ := h
  exact ⟨h1, h2, fun ns hn => (h4 ns hn).1, ids, s, collsOf_ok h3, h5, rfl⟩

/-- Every step of the world is one of the chain without the contract. -/
theorem step_st {c : Cfg} {w w' : World} {op : Op} (hop : Env c w op) (h : step c w op = .ok w') :
    ∃ o, Outbound.Env c w.st o ∧ Outbound.step c w.st o = .ok w'.st := by
  cases op with
  | erc20 k ben addr amount =>
    obtain ⟨r, hr, rfl⟩ := NftPeg.map_ok.mp h
    obtain ⟨_, _, _, a, s, _, h5, rfl⟩ := erc20_ok hr
    exact ⟨.peg (.withdraw k.caller a amount ben true), hop, h5⟩
  | erc721 k ben addrs serials =>
    obtain ⟨r, hr, rfl⟩ := NftPeg.map_ok.mp h
    obtain ⟨_, _, h4, ids, s, _, h5, rfl⟩ := erc721_ok hr
    exact ⟨.nftWithdraw k.caller ids serials ben, ⟨h4, hop⟩, h5⟩
  | other o =>
    simp only [step, bind_ok, pure_ok] at h
    obtain ⟨s, h1, rfl⟩ := h
    exact ⟨o, hop.1, h1⟩

theorem Reach.out {c : Cfg} {g w : World} (h : Reach c g w) : Outbound.Reach c (Outbound.Env c) g.st w.st := by
  induction h with
  | init hg => exact .init hg.st
  | step _ hop he ih =>
    obtain ⟨o, h1, h2⟩ := step_st hop he
    exact .step ih h1 h2

/-! ## The collections of the NFT peg -/

theorem event_maps {c : NftPeg.Cfg} {s : NftPeg.St} (h : NftPeg.Maps c s) (e : NftPeg.Event) :
    NftPeg.Maps c (NftPeg.onEvent c s e).1 := by
  unfold NftPeg.onEvent
  split
  · exact h
  · exact h
  · rename_i addrs ids dest
    cases NftPeg.decode c addrs ids with
    | error _ => exact h
    | ok gs => exact h.deposit _
  · exact h
  · exact h

attribute [local irreducible] sendRaw

theorem echo_nft (s : Outbound.St) (src : Nat) (data : List Abi.Byte) : (echoEvent s src data).nft = s.nft := by
  rcases echoEvent_cases s src data with e | ⟨n, d, _, _, e⟩
  · rw [e]
  · rw [e]
    exact (sendRaw_frame _ _ _ _ _).2.2.2.2.2.2.1

theorem peg_nft (c : Cfg) (s : Outbound.St) (src : Nat) (data : List Abi.Byte) : (pegEvent c s src data).nft = s.nft := by
  unfold pegEvent
  split
  · rfl
  · split <;> rfl

theorem foldl_nft {c : Cfg} : ∀ (ms : List (Nat × Erc20Peg.Wd)) (s : Outbound.St), (ms.foldl (sendErc20 c) s).nft = s.nft
  | [], _ => rfl
  | m :: ms, s => by
    rw [List.foldl_cons, foldl_nft ms]
    unfold sendErc20
    exact (sendRaw_frame s c.peg m.1 (erc20Msg m.2) (.erc20 m.1 m.2)).2.2.2.2.2.2.1

theorem out_maps {c : Cfg} {s s' : Outbound.St} {op : Outbound.Op} (h : NftPeg.Maps c.nftCfg s.nft)
    (hop : ∀ id a ns k, op = .nftPallet (.bridgedMint id a ns) → s.nft.nft.coll id = some k → k.origin = .xrpl)
    (he : Outbound.step c s op = .ok s') : NftPeg.Maps c.nftCfg s'.nft := by
  have same : s'.nft = s.nft → NftPeg.Maps c.nftCfg s'.nft := fun e => by rw [e]; exact h
  cases op with
  | ping who dest =>
    simp only [Outbound.step, ping, bind_ok, ensure_ok, pure_ok] at he
    obtain ⟨_, hs, s1, h1, rfl⟩ := he
    obtain ⟨rfl, _⟩ := send_ok h1
    exact same (sendRaw_frame _ _ _ _ _).2.2.2.2.2.2.1
  | peg o =>
    simp only [Outbound.step, pegOp, bind_ok, pure_ok] at he
    obtain ⟨p, hp, rfl⟩ := he
    exact same (foldl_nft _ _)
  | nftWithdraw who colls serials dest =>
    obtain ⟨m, hm, _⟩ := C182_withdraw (.inl ⟨colls, serials, he, rfl⟩)
    exact (NftPeg.withdraw_effect h hm).2.2.2.2
  | nftReclaim who b dest =>
    obtain ⟨m, hm, _⟩ := C182_withdraw (.inr ⟨b, he, rfl⟩)
    obtain ⟨r, a, _, _, _, _, e, _⟩ := NftPeg.reclaim_ok hm
    rw [e]
    exact h.unblock b
  | nftPallet o =>
    simp only [Outbound.step, bind_ok, pure_ok] at he
    obtain ⟨n, h1, rfl⟩ := he
    exact h.nftOp (fun id a ns k e hk => hop id a ns k (by rw [e]) hk) h1
  | setNftContract a =>
    cases he
    exact ⟨h.nft, h.root, h.eth, h.bl⟩
  | setContract a => cases he; exact h
  | setPaused b => cases he; exact h
  | handover keys =>
    cases he
    refine same ?_
    unfold handleChange
    exact (sendRaw_frame _ _ _ _ _).2.2.2.2.2.2.1
  | finalise => cases he; exact h
  | drain i =>
    simp only [Outbound.step, drain, bind_ok, ensure_ok, okOr_ok, pure_ok] at he
    obtain ⟨_, _, r, hr, rfl⟩ := he
    exact same (request_frame _ _).2.2.2.2.2.2.2.1
  | event src dst data =>
    simp only [Outbound.step, route] at he
    split at he
    · cases he
      exact same (echo_nft s src data)
    · split at he
      · cases he
        exact same (peg_nft c s src data)
      · split at he
        · obtain ⟨n, rfl, h1, h2⟩ := nftEvent_frame he
          by_cases hs : s.nft.contract = src
          · show NftPeg.Maps c.nftCfg n
            rw [h1 hs]
            exact event_maps h _
          · show NftPeg.Maps c.nftCfg n
            rw [h2 hs]
            exact h
        · cases he
          exact h

theorem Reach.maps {c : Cfg} {g w : World} (h : Reach c g w) : NftPeg.Maps c.nftCfg w.st.nft := by
  induction h with
  | init hg =>
    refine ⟨.init hg.nft, ?_, ?_, ?_⟩
    · intro a id hx; rw [hg.toRoot] at hx; cases hx
    · intro id a hx; rw [hg.st.toEth] at hx; cases hx
    · intro i r hx; rw [hg.st.blocked] at hx; cases hx
  | @step w w' op _ hop he ih =>
    cases op with
    | erc20 k ben addr amount =>
      obtain ⟨r, hr, rfl⟩ := NftPeg.map_ok.mp he
      obtain ⟨_, _, _, a, s, _, h5, rfl⟩ := erc20_ok hr
      exact out_maps ih (fun _ _ _ _ e => by cases e) h5
    | erc721 k ben addrs serials =>
      obtain ⟨r, hr, rfl⟩ := NftPeg.map_ok.mp he
      obtain ⟨_, _, h4, ids, s, _, h5, rfl⟩ := erc721_ok hr
      exact out_maps ih (fun _ _ _ _ e => by cases e) h5
    | other o =>
      simp only [PegEvm.step, bind_ok, pure_ok] at he
      obtain ⟨s, h1, rfl⟩ := he
      refine out_maps ih ?_ h1
      rintro id a ns k rfl hk
      exact hop.2 k hk

end Verif.PegEvm
