import Verif.Callback.Props

/-! # C148: no call into a token contract while it waits for a receiver -/

namespace Verif.Callback

open Market

/-- What the contract of collection `id` keeps: its owner, the next serial number, the number of tokens, the maximum, the
terms of public minting and the operators of every account. -/
def contract (s : Nft.St) (id : Nat) : Option (Acct × Nat × Nat × Option Nat) × Nft.PubMint × (Acct → Acct → Bool) :=
  ((s.coll id).map (fun k => (k.owner, k.next, k.issuance, k.maxIss)), s.pubMint id, fun a b => s.forAll a id b)

/-- Everybody uses the address the chain gave to the contract of collection `id`. -/
def Canon (id : Nat) : Prog → Prop
  | .stop => True
  | .op tail o next => (target o = some (false, id) → tail = 0) ∧ Canon id next
  | .safe721 tail j _ _ _ body _ next => (j = id → tail = 0) ∧ Canon id body ∧ Canon id next
  | .safe1155 _ _ _ _ _ _ body _ next => Canon id body ∧ Canon id next
  | .call _ body _ next => Canon id body ∧ Canon id next

theorem contract_transfer {c : Nft.Cfg} {s t : Nft.St} {j : Nat} {ns : List Nat} {a b : Acct}
    (h : Nft.doTransfer c s j ns a b = .ok t) (id : Nat) : contract t id = contract s id := by
  simp only [Nft.doTransfer, bind_ok, ensure_ok, okOr_ok, pure_ok] at h
  obtain ⟨_, _, _, _, _, _, k, hk, _, _, o, _, rfl⟩ := h
  unfold contract
  dsimp only [Nft.clearApprovals, Nft.setColl]
  congr 1
  rw [upd_apply]
  split
  · rename_i hx; subst hx; rw [hk]; rfl
  · rfl

theorem contract_unlock (j : Nat) : ∀ (ns : List Nat) (s : Nft.St) (id : Nat), contract (unlockNft j ns s) id = contract s id
  | [], _, _ => rfl
  | n :: ns, s, id => contract_unlock j ns (Nft.removeLock s j n) id

theorem contract_lock {who : Acct} {j i : Nat} : ∀ {ns : List Nat} {s t : Nft.St}, lockNft who j i ns s = .ok t → ∀ id,
    contract t id = contract s id
  | [], s, t, h, _ => by cases h; rfl
  | n :: ns, s, t, h, id => by
    simp only [lockNft, Nft.setLock, bind_ok, ensure_ok, pure_ok] at h
    obtain ⟨s1, ⟨_, _, _, _, rfl⟩, h⟩ := h
    exact (contract_lock h id).trans rfl

theorem contract_unlockTransfer {c : Cfg} {s t : St} {src dst : Acct} {tk : Tokens}
    (h : unlockTransfer c s src dst tk = .ok t) (id : Nat) : contract t.nft id = contract s.nft id := by
  cases tk with
  | nft j ns =>
    simp only [unlockTransfer, bind_ok, ensure_ok, pure_ok] at h
    obtain ⟨_, _, u, h1, rfl⟩ := h
    exact (contract_transfer h1 id).trans (contract_unlock j ns s.nft id)
  | sft j xs =>
    simp only [unlockTransfer, bind_ok, pure_ok] at h
    obtain ⟨_, _, _, _, rfl⟩ := h
    rfl

theorem contract_setColl {s t : Nft.St} {id j : Nat} {k : Nft.Coll} (hj : id ≠ j) (hc : t.coll = upd s.coll j (some k))
    (hp : t.pubMint = s.pubMint) (hf : t.forAll = s.forAll) : contract t id = contract s id := by
  unfold contract
  rw [hc, hp, hf, upd_ne _ _ hj]

/-- A call that is not sent to the contract changes nothing in it. -/
theorem contract_nft {c : Nft.Cfg} {s t : Nft.St} {me : Acct} {id : Nat} {o : Nft.Op} (hr : Nft.Reach c Nft.Bridged s)
    (hex : s.coll id ≠ none) (hb : nftBy me o = true) (ht : target (.nft o) ≠ some (false, id))
    (hs : Nft.step c s o = .ok t) : contract t id = contract s id := by
  have ne : ∀ {j : Nat}, target (.nft o) = some (false, j) → id ≠ j := by
    rintro j hj rfl
    exact ht hj
  cases o with
  | create w i m r y x =>
    simp only [Nft.step, Nft.doCreate, bind_ok, ensure_ok, pure_ok] at hs
    obtain ⟨j, hj, _, _, _, _, _, _, rfl⟩ := hs
    refine contract_setColl (s := s) (j := j) ?_ rfl rfl rfl
    rintro rfl
    simp only [Nft.nextUuid, okOr_ok] at hj
    exact hex (hr.ai.fresh hj)
  | mint w j q r e =>
    simp only [Nft.step, Nft.mint, Nft.doMint, bind_ok, ensure_ok, okOr_ok, pure_ok] at hs
    obtain ⟨_, _, _, _, _, _, _, _, _, _, _, ⟨_, _, _, _, _, _, rfl⟩, _, _, rfl⟩ := hs
    exact contract_setColl (s := s) (ne rfl) rfl rfl rfl
  | setOwner w j o =>
    simp only [Nft.step, Nft.setOwner, bind_ok, ensure_ok, okOr_ok, pure_ok] at hs
    obtain ⟨_, _, _, _, rfl⟩ := hs
    exact contract_setColl (s := s) (ne rfl) rfl rfl rfl
  | setMaxIssuance w j o =>
    simp only [Nft.step, Nft.setMaxIssuance, bind_ok, ensure_ok, okOr_ok, pure_ok] at hs
    obtain ⟨_, _, _, _, _, _, _, _, _, _, rfl⟩ := hs
    exact contract_setColl (s := s) (ne rfl) rfl rfl rfl
  | setPubMint w j o =>
    simp only [Nft.step, Nft.setPubMint, bind_ok, ensure_ok, okOr_ok, pure_ok] at hs
    obtain ⟨_, _, _, _, rfl⟩ := hs
    unfold contract
    dsimp only
    rw [upd_ne _ _ (ne rfl)]
  | approve a b j m =>
    simp only [Nft.step, Nft.approve, bind_ok, ensure_ok, okOr_ok, pure_ok] at hs
    obtain ⟨_, _, w, hw, _, hor, rfl⟩ := hs
    rfl
  | approveAll a b j ok =>
    simp only [Nft.step, Nft.approveAll, bind_ok, ensure_ok, pure_ok] at hs
    obtain ⟨_, _, rfl⟩ := hs
    unfold contract
    dsimp only
    congr 2
    funext x y
    by_cases hx : x = a
    · subst hx
      rw [upd_same, upd_ne _ _ (ne rfl)]
    · rw [upd_ne _ _ hx]
  | transferFrom a j m x y =>
    simp only [Nft.step, Nft.transferFrom, bind_ok, ensure_ok] at hs
    obtain ⟨_, _, hs⟩ := hs
    exact contract_transfer hs id
  | burnPrecompile a j m =>
    simp only [Nft.step, Nft.burnPrecompile, Nft.doBurn, bind_ok, ensure_ok, okOr_ok, pure_ok] at hs
    obtain ⟨_, _, _, _, _, _, _, _, _, _, _, _, rfl⟩ := hs
    exact contract_setColl (s := s) (ne rfl) rfl rfl rfl
  | _ => exact absurd hb Bool.false_ne_true

theorem contract_step {c : Cfg} {s t : St} {me : Acct} {id : Nat} {o : Op} (hg : Good c s [])
    (hex : s.nft.coll id ≠ none) (hp : me ≠ c.holds.pot) (hb : opBy me o = true) (ht : target o ≠ some (false, id))
    (hs : Market.step c s o = .ok t) : contract t.nft id = contract s.nft id := by
  cases o with
  | list b w tk y a p d m =>
    simp only [Market.step, Market.list, bind_ok, ensure_ok, pure_ok] at hs
    obtain ⟨_, _, _, _, _, _, _, _, s1, h1, _, _, rfl⟩ := hs
    show contract s1.nft id = _
    cases tk with
    | nft j ns =>
      simp only [lockTokens, bind_ok, pure_ok] at h1
      obtain ⟨u, hu, rfl⟩ := h1
      exact contract_lock hu id
    | sft j xs =>
      simp only [lockTokens, bind_ok, pure_ok] at h1
      obtain ⟨u, hu, rfl⟩ := h1
      rfl
  | updatePrice w i p =>
    simp only [Market.step, Market.updatePrice, bind_ok, okOr_ok, ensure_ok, pure_ok] at hs
    obtain ⟨_, _, _, _, _, _, _, _, rfl⟩ := hs
    rfl
  | buy w i =>
    have hw : w = me := of_decide_eq_true hb
    obtain ⟨l, L, hl, _, _, _, h1, _⟩ := buy_ok hs hg (fun hx => hp (hw.symm.trans hx))
    exact contract_unlockTransfer h1 id
  | bid w i x =>
    simp only [Market.step, Market.bid, bind_ok, okOr_ok, ensure_ok, pure_ok] at hs
    obtain ⟨_, _, _, _, _, _, _, _, _, _, _, _, rfl⟩ := hs
    unfold extend
    split
    · rfl
    · rfl
  | cancelSale w i =>
    simp only [Market.step, Market.cancelSale, bind_ok, okOr_ok, ensure_ok, pure_ok] at hs
    obtain ⟨l, hl, _, _, _, _, s1, h1, rfl⟩ := hs
    show contract s1.nft id = _
    revert h1
    cases l.tokens with
    | nft j ns => intro h1; cases h1; exact contract_unlock j ns s.nft id
    | sft j xs =>
      intro h1
      simp only [unlockTokens, bind_ok, pure_ok] at h1
      obtain ⟨_, _, rfl⟩ := h1
      rfl
  | makeOffer w j m x a mk =>
    simp only [Market.step, Market.makeOffer, bind_ok, okOr_ok, ensure_ok, pure_ok] at hs
    obtain ⟨_, _, _, _, _, _, _, _, _, _, _, _, _, _, _, _, rfl⟩ := hs
    rfl
  | cancelOffer w i =>
    simp only [Market.step, Market.cancelOffer, removeOffer, bind_ok, okOr_ok, ensure_ok, pure_ok] at hs
    obtain ⟨_, _, _, _, _, _, _, _, rfl⟩ := hs
    rfl
  | acceptOffer w i =>
    obtain ⟨o, roy, hs1, s1, ho, hown, _, _, e2, _, e4, _⟩ := acceptOffer_ok hs hg
    obtain ⟨⟨ls, sc, ix, eu⟩, gu, _, _⟩ := unlist_ok hg o.coll o.serial
    have key := contract_unlockTransfer e2 id
    rw [e4]
    refine key.trans ?_
    rw [eu]
  | registerMarket w a p =>
    simp only [Market.step, Market.registerMarket, bind_ok, ensure_ok, pure_ok] at hs
    obtain ⟨_, _, _, _, rfl⟩ := hs
    rfl
  | nft op =>
    simp only [Market.step, bind_ok, pure_ok] at hs
    obtain ⟨u, hu, rfl⟩ := hs
    exact contract_nft hg.lk.nr hex hb ht hu
  | sft op =>
    simp only [Market.step, bind_ok, pure_ok] at hs
    obtain ⟨u, hu, rfl⟩ := hs
    rfl
  | assets op =>
    simp only [Market.step, bind_ok, pure_ok] at hs
    obtain ⟨u, hu, rfl⟩ := hs
    rfl
  | _ => exact absurd hb Bool.false_ne_true

theorem exists_of_contract {s t : Nft.St} {id : Nat} (h : contract t id = contract s id) (hex : s.coll id ≠ none) :
    t.coll id ≠ none := by
  intro hx
  have h1 := congrArg (fun x => x.1) h
  simp only [contract, hx, Option.map_none] at h1
  cases hk : s.coll id with
  | none => exact hex hk
  | some k => rw [hk] at h1; cases h1

/-- C148 (partial): while the contract of a collection waits for the answer of a receiver, nothing that the receiver and
the contracts it calls do changes the owner, the supply, the limits, the minting terms or the operators of the
collection, provided that everybody uses its address as the chain made it. Missing: other addresses that lead to the
same collection, see `C148_refuted`. -/
theorem C148_guard_partial {c : Cfg} {code : Acct → Bool} {id : Nat} (hc : code c.holds.pot = false) :
    ∀ (p : Prog) (me : Acct) (busy : List Addr) (s s' : St), Reach c (Env c) s → me ≠ c.holds.pot →
      s.nft.coll id ≠ none → (false, id, 0) ∈ busy → Canon id p → run c code me busy p s = some s' →
      Reach c (Env c) s' ∧ contract s'.nft id = contract s.nft id := by
  have hcp : ∀ a, code a = true → a ≠ c.holds.pot := fun a ha hx => by
    rw [hx, hc] at ha; exact Bool.false_ne_true ha
  have att : ∀ {s : St} {r : Except Err St}, Reach c (Env c) s →
      (∀ t, r = .ok t → Reach c (Env c) t ∧ contract t.nft id = contract s.nft id) →
      Reach c (Env c) (attempt s r) ∧ contract (attempt s r).nft id = contract s.nft id := by
    intro s r h1 h2
    cases r with
    | ok t => exact h2 t rfl
    | error e => exact ⟨h1, rfl⟩
  have g721 : ∀ {t u : St} {j n : Nat} {src dst : Acct}, Reach c (Env c) t → give721 c t j n src dst = .ok u →
      Reach c (Env c) u ∧ contract u.nft id = contract t.nft id := by
    intro t u j n src dst h hs
    refine ⟨give721_reach h hs, ?_⟩
    simp only [give721, Market.step, bind_ok, pure_ok] at hs
    obtain ⟨w, hw, rfl⟩ := hs
    exact contract_transfer hw id
  have g1155 : ∀ {t u : St} {me : Acct} {j : Nat} {xs : List (Nat × Nat)} {src dst : Acct}, Reach c (Env c) t →
      give1155 c t me j xs src dst = .ok u → Reach c (Env c) u ∧ contract u.nft id = contract t.nft id := by
    intro t u me j xs src dst h hs
    refine ⟨give1155_reach h hs, ?_⟩
    have hs := (give1155_ok hs).2
    simp only [Market.step, bind_ok, pure_ok] at hs
    obtain ⟨w, hw, rfl⟩ := hs
    rfl
  intro p
  induction p with
  | stop => intro me busy s s' h _ _ _ _ hr; cases hr; exact ⟨h, rfl⟩
  | op tail o next ih =>
    intro me busy s s' h hm hex hbusy hcan hr
    have key : ∀ u, u = (if opBy me o = true ∧ freeOp busy tail o = true then attempt s (step c s o) else s) →
        Reach c (Env c) u ∧ contract u.nft id = contract s.nft id := by
      rintro u rfl
      split
      · rename_i hx
        refine att h (fun t ht => ⟨h.step (opBy_env hx.1 hm) ht, ?_⟩)
        refine contract_step (h.good (fun _ _ h => h)) hex hm hx.1 ?_ ht
        intro htg
        have h2 := hx.2
        unfold freeOp at h2
        rw [htg] at h2
        dsimp only [free] at h2
        rw [hcan.1 htg, List.contains_iff_mem.mpr hbusy] at h2
        exact Bool.false_ne_true h2
      · exact ⟨h, rfl⟩
    obtain ⟨k1, k2⟩ := key _ rfl
    obtain ⟨r1, r2⟩ := ih me busy _ s' k1 hm (exists_of_contract k2 hex) hbusy hcan.2 hr
    exact ⟨r1, r2.trans k2⟩
  | safe721 tail j n src dst body answer next ihb ihn =>
    intro me busy s s' h hm hex hbusy hcan hr
    have done : ∀ {u : St}, Reach c (Env c) u ∧ contract u.nft id = contract s.nft id → run c code me busy next u = some s' →
        Reach c (Env c) s' ∧ contract s'.nft id = contract s.nft id := by
      intro u hu hru
      obtain ⟨r1, r2⟩ := ihn me busy u s' hu.1 hm (exists_of_contract hu.2 hex) hbusy hcan.2.2 hru
      exact ⟨r1, r2.trans hu.2⟩
    simp only [run] at hr
    split at hr
    · split at hr
      · rename_i hd
        split at hr
        · cases hr
        · rename_i t ht
          obtain ⟨t1, t2⟩ := ihb dst _ s t h (hcp dst hd) hex (List.mem_cons_of_mem _ hbusy) hcan.2.1 ht
          split at hr
          · cases hr
          · refine done ?_ hr
            unfold finish
            split
            · refine att h (fun u hu => ?_)
              obtain ⟨u1, u2⟩ := g721 t1 hu
              exact ⟨u1, u2.trans t2⟩
            · exact ⟨h, rfl⟩
      · exact done (att h (fun u hu => g721 h hu)) hr
    · exact done ⟨h, rfl⟩ hr
  | safe1155 batch tail j xs src dst body answer next ihb ihn =>
    intro me busy s s' h hm hex hbusy hcan hr
    have done : ∀ {u : St}, Reach c (Env c) u ∧ contract u.nft id = contract s.nft id → run c code me busy next u = some s' →
        Reach c (Env c) s' ∧ contract s'.nft id = contract s.nft id := by
      intro u hu hru
      obtain ⟨r1, r2⟩ := ihn me busy u s' hu.1 hm (exists_of_contract hu.2 hex) hbusy hcan.2 hru
      exact ⟨r1, r2.trans hu.2⟩
    simp only [run] at hr
    split at hr
    · split at hr
      · rename_i hd
        split at hr
        · cases hr
        · rename_i t ht
          obtain ⟨t1, t2⟩ := ihb dst _ s t h (hcp dst hd) hex (List.mem_cons_of_mem _ hbusy) hcan.1 ht
          split at hr
          · cases hr
          · refine done ?_ hr
            unfold finish
            split
            · refine att h (fun u hu => ?_)
              obtain ⟨u1, u2⟩ := g1155 t1 hu
              exact ⟨u1, u2.trans t2⟩
            · exact ⟨h, rfl⟩
      · exact done (att h (fun u hu => g1155 h hu)) hr
    · exact done ⟨h, rfl⟩ hr
  | call dst body ok next ihb ihn =>
    intro me busy s s' h hm hex hbusy hcan hr
    have done : ∀ {u : St}, Reach c (Env c) u ∧ contract u.nft id = contract s.nft id → run c code me busy next u = some s' →
        Reach c (Env c) s' ∧ contract s'.nft id = contract s.nft id := by
      intro u hu hru
      obtain ⟨r1, r2⟩ := ihn me busy u s' hu.1 hm (exists_of_contract hu.2 hex) hbusy hcan.2 hru
      exact ⟨r1, r2.trans hu.2⟩
    simp only [run] at hr
    split at hr
    · rename_i hd
      split at hr
      · cases hr
      · rename_i t ht
        obtain ⟨t1, t2⟩ := ihb dst _ s t h (hcp dst hd) hex hbusy hcan.1 ht
        refine done ?_ hr
        split
        · exact ⟨t1, t2⟩
        · exact ⟨h, rfl⟩
    · exact done ⟨h, rfl⟩ hr

/-- What contract 5 does when contract 3 sells it a token: take token 1, then pay 20. -/
def shop : Prog := .op 0 (.nft (.transferFrom 5 100 1 3 5)) (.op 0 (.assets (.transfer 4 5 3 20)) .stop)

/-- Contract 3 sends token 1 to itself in the name of contract 5, and sells it to contract 5 in between. `tail` are the
last bytes of the address it uses for the collection. -/
def fraud (tail : Nat) : Prog := .call 3 (.safe721 tail 100 1 5 3 (.call 5 shop true .stop) yes .stop) true .stop

def cheated : St := (run cfg0 code0 9 [] (fraud 1) demo).getD demo

/-- C148 is false in general: through another address of the same collection a call is made into the collection while it
waits for a receiver. Here contract 5 takes and pays for a token and loses it in the same transaction. With the address
the chain made, the call of contract 5 is refused. -/
theorem C148_refuted : Reach cfg0 (Env cfg0) demo ∧ run cfg0 code0 9 [] (fraud 1) demo = some cheated ∧
    Nft.ownerOf demo.nft 100 1 = some 3 ∧ Nft.ownerOf cheated.nft 100 1 = some 3 ∧
    cheated.hs.ledger.bal 4 5 + 20 = demo.hs.ledger.bal 4 5 ∧ cheated.hs.ledger.bal 4 3 = demo.hs.ledger.bal 4 3 + 20 ∧
    ((run cfg0 code0 5 [(false, 100, 1)] shop demo).map (fun s => Nft.ownerOf s.nft 100 1)) = some (some 5) ∧
    ((run cfg0 code0 5 [(false, 100, 0)] shop demo).map (fun s => Nft.ownerOf s.nft 100 1)) = some (some 3) :=
  ⟨demo_reach, some_getD (by decide +kernel), by decide +kernel, by decide +kernel, by decide +kernel, by decide +kernel,
    by decide +kernel, by decide +kernel⟩

/-- Non-vacuity of `C148_guard_partial`: with the address the chain made, minting from a callback has no effect, outside
of it it has. -/
example : Canon 100 (.op 0 (.nft (.mint 3 100 1 none true)) .stop) ∧ demo.nft.coll 100 ≠ none ∧
    ((run cfg0 code0 3 [(false, 100, 0)] (.op 0 (.nft (.mint 3 100 1 none true)) .stop) demo).map
      (fun s => (s.nft.coll 100).map (fun k => k.issuance))) = some (some 2) ∧
    ((run cfg0 code0 3 [] (.op 0 (.nft (.mint 3 100 1 none true)) .stop) demo).map
      (fun s => (s.nft.coll 100).map (fun k => k.issuance))) = some (some 3) := by
  refine ⟨⟨fun _ => rfl, trivial⟩, ?_, ?_, ?_⟩
  · rw [← Option.isSome_iff_ne_none]; decide +kernel
  · decide +kernel
  · decide +kernel

end Verif.Callback
