import Verif.NftPeg.Model

/-!
# What the steps of the ERC-721 bridge do
-/

namespace Verif.NftPeg

open Nft (Owns Eff)

/-- The token exists on the chain. -/
def Ex (s : Nft.St) (id n : Nat) : Prop := ∃ k, s.coll id = some k ∧ ∃ a, Owns k.owned a n

/-! ## operations of the NFT pallet -/

/-- An operation other than a bridged mint into the collection keeps a collection of another chain and adds
no token to it. -/
theorem eff_old {c : Nft.Cfg} {s s' : Nft.St} {op : Nft.Op} (hai : Nft.AI c s) (e : Eff c s op s') {id : Nat}
    {k : Nft.Coll} (hk : s.coll id = some k) (hr : k.origin ≠ .root) (hop : ∀ a ns, op ≠ .bridgedMint id a ns) :
    ∃ k', s'.coll id = some k' ∧ k'.origin = k.origin ∧ ∀ a n, Owns k'.owned a n → ∃ b, Owns k.owned b n := by
  cases e with
  | same coll => exact ⟨k, by rw [coll, hk], rfl, fun a n h => ⟨a, h⟩⟩
  | @new id' k' i uuid _ _ _ _ =>
    have hne : id ≠ id' := by
      rintro rfl
      rw [hai.fresh uuid] at hk
      cases hk
    exact ⟨k, by show upd s.coll id' _ id = _; rw [upd_ne _ _ hne, hk], rfl, fun a n h => ⟨a, h⟩⟩
  | @set id' k1 k' coll owned origin _ _ _ =>
    by_cases hid : id = id'
    · subst hid
      rw [hk] at coll
      cases coll
      exact ⟨k', upd_same _ _ _, origin, fun a n h => ⟨a, by rw [owned] at h; exact h⟩⟩
    · exact ⟨k, by show upd s.coll id' _ id = _; rw [upd_ne _ _ hid, hk], rfl, fun a n h => ⟨a, h⟩⟩
  | @transfer id' k1 ns cur new o _ _ _ coll own add =>
    by_cases hid : id = id'
    · subst hid
      rw [hk] at coll
      cases coll
      refine ⟨_, upd_same _ _ _, rfl, fun a n h => ?_⟩
      rcases (Nft.transfer_owns (hai.owners _ _ hk) add a n).mp h with h1 | h1
      · exact ⟨a, h1.1⟩
      · exact ⟨cur, (own n h1.2).1⟩
    · exact ⟨k, by show upd s.coll id' _ id = _; rw [upd_ne _ _ hid, hk], rfl, fun a n h => ⟨a, h⟩⟩
  | @burn id' k1 n0 who _ _ _ coll _ =>
    by_cases hid : id = id'
    · subst hid
      rw [hk] at coll
      cases coll
      exact ⟨_, upd_same _ _ _, rfl, fun a n h => ⟨a, ((Nft.burnFrom_owns a n).mp h).1⟩⟩
    · exact ⟨k, by show upd s.coll id' _ id = _; rw [upd_ne _ _ hid, hk], rfl, fun a n h => ⟨a, h⟩⟩
  | @mint who id' q rcv ext k1 o L _ _ coll _ _ _ origin _ _ _ _ _ =>
    by_cases hid : id = id'
    · subst hid
      rw [hk] at coll
      cases coll
      exact absurd origin hr
    · exact ⟨k, by show upd s.coll id' _ id = _; rw [upd_ne _ _ hid, hk], rfl, fun a n h => ⟨a, h⟩⟩
  | @bridged id' k1 o who ns hop' coll _ =>
    by_cases hid : id = id'
    · subst hid
      exact absurd hop' (hop _ _)
    · exact ⟨k, by show upd s.coll id' _ id = _; rw [upd_ne _ _ hid, hk], rfl, fun a n h => ⟨a, h⟩⟩

theorem bridgedMint_ok {c : Nft.Cfg} {s s' : Nft.St} {id : Nat} {who : Acct} {ns : List Nat} {k : Nft.Coll}
    (hk : s.coll id = some k) (h : Nft.bridgedMint c s id who ns = .ok s') :
    ∃ k', s'.coll id = some k' ∧ k'.origin = k.origin ∧
      (∀ a n, Owns k'.owned a n → Owns k.owned a n ∨ (a = who ∧ n ∈ ns ∧ ∀ b, ¬ Owns k.owned b n)) ∧
      (∀ j, j ≠ id → s'.coll j = s.coll j) ∧
      ((Nft.trim k ns).length ≤ c.maxTokens → ∀ n ∈ ns, (∀ b, ¬ Owns k.owned b n) → Owns k'.owned who n) ∧
      (∀ a n, Owns k.owned a n → Owns k'.owned a n) := by
  unfold Nft.bridgedMint at h
  split at h
  · rename_i h0
    cases h
    exact ⟨k, hk, rfl, fun a n h => Or.inl h, fun _ _ => rfl, fun _ n hn => (by rw [h0] at hn; cases hn), fun _ _ h => h⟩
  · rw [hk] at h
    dsimp only at h
    split at h
    · rename_i hl
      cases h
      exact ⟨k, hk, rfl, fun a n h => Or.inl h, fun _ _ => rfl, fun hle => (by omega), fun _ _ h => h⟩
    · simp only [Nft.doMint, bind_ok, ensure_ok, pure_ok] at h
      obtain ⟨_, _, _, _, o, ho, rfl⟩ := h
      refine ⟨_, upd_same _ _ _, rfl, fun a n h => ?_, fun j hj => upd_ne _ _ hj, fun _ n hn hnew => ?_,
        fun a n h => (Nft.addUser_owns ho a n).mpr (Or.inl h)⟩
      · rcases (Nft.addUser_owns ho a n).mp h with h1 | ⟨h1, h2⟩
        · exact Or.inl h1
        · have := Nft.mem_trim.mp h2
          exact Or.inr ⟨h1, this.1, this.2⟩
      · exact (Nft.addUser_owns ho who n).mpr (Or.inr ⟨rfl, Nft.mem_trim.mpr ⟨hn, hnew⟩⟩)

theorem doBurn_ok {s s' : Nft.St} {who : Acct} {id n : Nat} (h : Nft.doBurn s who id n = .ok s') :
    ∃ k, s.coll id = some k ∧ Owns k.owned who n ∧ s.locks id n = none ∧ (s.flags id).burnable = true ∧
      s'.locks = s.locks ∧ s'.flags = s.flags ∧
      s'.coll = upd s.coll id (some { k with
        issuance := k.issuance - 1
        owned := Nft.burnFrom k.owned who n }) := by
  simp only [Nft.doBurn, bind_ok, ensure_ok, okOr_ok, pure_ok] at h
  obtain ⟨_, hl, _, hf, k, hk, _, ho, rfl⟩ := h
  exact ⟨k, hk, Nft.isTokenOwner_iff.mp ho, hl, hf, rfl, rfl, rfl⟩

/-- Tokens after a burn. -/
theorem burn_ex {c : Nft.Cfg} {s s' : Nft.St} (hr : Nft.Reach c Nft.Bridged s) {who : Acct} {id n : Nat}
    (h : Nft.doBurn s who id n = .ok s') (j m : Nat) : Ex s' j m ↔ Ex s j m ∧ ¬ (j = id ∧ m = n) := by
  obtain ⟨k, hk, ho, _, _, _, _, hc⟩ := doBurn_ok h
  have hu := (hr.bi.coll id k hk).uniq
  by_cases hj : j = id
  · subst hj
    unfold Ex
    rw [hc, upd_same]
    constructor
    · rintro ⟨k', hk', a, ha⟩
      cases hk'
      obtain ⟨h1, h2⟩ := (Nft.burnFrom_owns a m).mp ha
      refine ⟨⟨k, hk, a, h1⟩, ?_⟩
      rintro ⟨_, rfl⟩
      exact h2 ⟨hu a who m h1 ho, rfl⟩
    · rintro ⟨⟨k', hk', a, ha⟩, hne⟩
      rw [hk] at hk'
      cases hk'
      exact ⟨_, rfl, a, (Nft.burnFrom_owns a m).mpr ⟨ha, fun hx => hne ⟨rfl, hx.2⟩⟩⟩
  · unfold Ex
    rw [hc, upd_ne _ _ hj]
    exact ⟨fun h => ⟨h, fun hx => hj hx.1⟩, fun h => h.1⟩

/-- Creating the collection of an Ethereum contract is what a bridge may do. -/
theorem create_eq {c : Nft.Cfg} {s : Nft.St} {o d : Acct} :
    Nft.doCreate c s o 0 none (some d) none .ethereum false = Nft.step c s (.createBridged o .ethereum false) := by
  simp only [Nft.step, Nft.doCreate, Nft.firstOwned, if_true]
  rw [ensure_pos (p := Nft.Chain.ethereum ≠ Nft.Chain.root) (by decide)]
  rfl

theorem create_ok {c : Nft.Cfg} {s s' : Nft.St} {o d : Acct} {id : Nat}
    (h : Nft.doCreate c s o 0 none (some d) none .ethereum false = .ok s') (hid : Nft.nextUuid c s = .ok id) :
    Nft.nextAssetUuid s.nextId c.chainId = some id ∧
      s'.coll = upd s.coll id (some ⟨o, none, none, .ethereum, 0, 0, false, []⟩) := by
  simp only [Nft.doCreate, Nft.firstOwned, bind_ok, ensure_ok, pure_ok, if_true] at h
  obtain ⟨id', hid', _, _, _, _, o', ho, rfl⟩ := h
  cases ho
  rw [hid] at hid'
  cases hid'
  simp only [Nft.nextUuid, okOr_ok] at hid
  exact ⟨hid, rfl⟩

/-! ## the mappings -/

/-- Invariant of the mappings, for the state of the pallet. -/
structure Maps (c : Cfg) (s : St) : Prop where
  nft : Nft.Reach c.nft Nft.Bridged s.nft
  root : ∀ a id, s.toRoot a = some id → s.toEth id = some a ∧ ∃ k, s.nft.coll id = some k ∧ k.origin = .ethereum
  eth : ∀ id a, s.toEth id = some a → s.toRoot a = some id
  bl : ∀ i r, s.blocked i = some r → ∃ a, s.toEth r.coll = some a

/-- A mapped collection exists and came from Ethereum. -/
theorem Maps.coll {c : Cfg} {s : St} (h : Maps c s) {id a : Nat} (he : s.toEth id = some a) :
    ∃ k, s.nft.coll id = some k ∧ k.origin = .ethereum := (h.root a id (h.eth id a he)).2

/-- The collection after looking it up. -/
theorem collFor_ok {c : Cfg} {s s1 : St} {addr id : Nat} {dest : Acct} (h : Maps c s)
    (hc : collFor c s addr dest = .ok (s1, id)) :
    Maps c s1 ∧ s1.toRoot addr = some id ∧ s1.toEth id = some addr ∧ s1.blocked = s.blocked ∧
      s1.nextBlocked = s.nextBlocked ∧ s1.contract = s.contract ∧
      (∀ j m, Ex s1.nft j m ↔ Ex s.nft j m) ∧
      (∀ j b, s1.toEth j = some b → s.toEth j = some b ∨ (j = id ∧ b = addr ∧ ∀ m, ¬ Ex s1.nft id m)) ∧
      (∀ j b, s.toEth j = some b → s1.toEth j = some b) ∧
      (∀ b j, s.toRoot b = some j → s1.toRoot b = some j) ∧
      (s1 = s ∨ (s.toRoot addr = none ∧ s.toEth id = none ∧ ∀ m, ¬ Ex s1.nft id m)) := by
  unfold collFor at hc
  split at hc
  · rename_i id' hid
    cases hc
    exact ⟨h, hid, (h.root _ _ hid).1, rfl, rfl, rfl, fun _ _ => Iff.rfl, fun j b hb => Or.inl hb,
      fun j b hb => hb, fun b j hb => hb, Or.inl rfl⟩
  · rename_i hnone
    simp only [bind_ok, pure_ok, Prod.mk.injEq] at hc
    obtain ⟨id', hid, n, hn, rfl, rfl⟩ := hc
    obtain ⟨huuid, hcoll⟩ := create_ok hn hid
    have hfresh := h.nft.ai.fresh huuid
    have hto : s.toEth id' = none := by
      cases he : s.toEth id' with
      | none => rfl
      | some b =>
        obtain ⟨k, hk, _⟩ := h.coll he
        rw [hfresh] at hk
        cases hk
    have hadr : ∀ j, s.toEth j ≠ some addr := by
      intro j hj
      have := h.eth _ _ hj
      rw [hnone] at this
      cases this
    rw [create_eq] at hn
    have hnex : ∀ m, ¬ Ex n id' m := by
      rintro m ⟨k, hk, a, e, he, _⟩
      rw [hcoll, upd_same] at hk
      cases hk
      cases he
    have hex : ∀ j m, Ex n j m ↔ Ex s.nft j m := by
      intro j m
      by_cases hj : j = id'
      · subst hj
        refine ⟨fun hx => absurd hx (hnex m), ?_⟩
        rintro ⟨k, hk, _⟩
        rw [hfresh] at hk
        cases hk
      · unfold Ex
        rw [hcoll, upd_ne _ _ hj]
    have heth : ∀ j b, upd s.toEth id' (some addr) j = some b → s.toEth j = some b ∨ (j = id' ∧ b = addr) := by
      intro j b hb
      by_cases hj : j = id'
      · subst hj
        rw [upd_same] at hb
        cases hb
        exact Or.inr ⟨rfl, rfl⟩
      · rw [upd_ne _ _ hj] at hb
        exact Or.inl hb
    refine ⟨⟨?_, ?_, ?_, ?_⟩, upd_same _ _ _, upd_same _ _ _, rfl, rfl, rfl, hex, ?_, ?_, ?_,
      Or.inr ⟨hnone, hto, hnex⟩⟩
    · exact h.nft.step (op := .createBridged c.nft.palletAcct .ethereum false) trivial hn
    · intro a j haj
      dsimp only at haj ⊢
      by_cases ha : a = addr
      · subst ha
        rw [upd_same] at haj
        cases haj
        exact ⟨upd_same _ _ _, _, by rw [hcoll, upd_same], rfl⟩
      · rw [upd_ne _ _ ha] at haj
        obtain ⟨h1, k, hk, hg⟩ := h.root a j haj
        have hj : j ≠ id' := by
          rintro rfl
          rw [hfresh] at hk
          cases hk
        exact ⟨by rw [upd_ne _ _ hj, h1], k, by rw [hcoll, upd_ne _ _ hj, hk], hg⟩
    · intro j b hb
      dsimp only at hb ⊢
      rcases heth j b hb with h1 | ⟨rfl, rfl⟩
      · have hne : b ≠ addr := by
          rintro rfl
          exact hadr j h1
        rw [upd_ne _ _ hne]
        exact h.eth j b h1
      · exact upd_same _ _ _
    · intro i r hr
      obtain ⟨a, ha⟩ := h.bl i r hr
      refine ⟨a, ?_⟩
      have hj : r.coll ≠ id' := by
        intro e
        rw [e, hto] at ha
        cases ha
      show upd s.toEth id' _ r.coll = _
      rw [upd_ne _ _ hj, ha]
    · intro j b hb
      rcases heth j b hb with h1 | ⟨h1, h2⟩
      · exact Or.inl h1
      · exact Or.inr ⟨h1, h2, hnex⟩
    · intro j b hb
      have hj : j ≠ id' := by
        rintro rfl
        rw [hto] at hb
        cases hb
      show upd s.toEth id' _ j = _
      rw [upd_ne _ _ hj, hb]
    · intro b j hb
      have hne : b ≠ addr := by
        rintro rfl
        rw [hnone] at hb
        cases hb
      show upd s.toRoot addr _ b = _
      rw [upd_ne _ _ hne, hb]

/-- Minting into a mapped collection keeps the mappings. -/
theorem Maps.mint {c : Cfg} {s : St} (h : Maps c s) {id a : Nat} {dest : Acct} {ns : List Nat} {n : Nft.St}
    (he : s.toEth id = some a) (hm : Nft.bridgedMint c.nft s.nft id dest ns = .ok n) :
    Maps c { s with nft := n } := by
  obtain ⟨k, hk, hg⟩ := h.coll he
  obtain ⟨k', hk', hg', _, hoth, _⟩ := bridgedMint_ok hk hm
  refine ⟨h.nft.step (op := .bridgedMint id dest ns) ?_ hm, ?_, h.eth, h.bl⟩
  · intro k1 hk1
    rw [hk] at hk1
    cases hk1
    rw [hg]
    decide
  · intro b j hb
    obtain ⟨h1, k1, hk1, hg1⟩ := h.root b j hb
    refine ⟨h1, ?_⟩
    by_cases hj : j = id
    · subst hj
      rw [hk] at hk1
      cases hk1
      exact ⟨k', hk', hg'.trans hg⟩
    · exact ⟨k1, by rw [← hk1]; exact hoth j hj, hg1⟩

theorem Maps.block {c : Cfg} {s : St} (h : Maps c s) {id a : Nat} {dest : Acct} {ns : List Nat}
    (he : s.toEth id = some a) : Maps c (block c s id dest ns) := by
  unfold NftPeg.block
  split
  · refine ⟨h.nft, h.root, h.eth, ?_⟩
    intro i r hr
    dsimp only at hr ⊢
    by_cases hi : i = s.nextBlocked
    · subst hi
      rw [upd_same] at hr
      cases hr
      exact ⟨a, he⟩
    · rw [upd_ne _ _ hi] at hr
      exact h.bl i r hr
  · exact h

theorem Maps.group {c : Cfg} {s : St} (h : Maps c s) {dest : Acct} {g : Nat × List Nat} :
    Maps c (depositGroup c s dest g).1 := by
  unfold depositGroup
  cases hc : collFor c s g.1 dest with
  | error e => exact h
  | ok r =>
    obtain ⟨s1, id⟩ := r
    obtain ⟨h1, _, he, _⟩ := collFor_ok h hc
    dsimp only
    cases hm : Nft.bridgedMint c.nft s1.nft id dest g.2 with
    | ok n => exact h1.mint he hm
    | error e => exact h1.block he

theorem Maps.deposit {c : Cfg} {dest : Acct} : ∀ (gs : List (Nat × List Nat)) {s : St}, Maps c s →
    Maps c (doDeposit c dest s gs).1
  | [], _, h => h
  | g :: gs, s, h => by
    unfold doDeposit
    have hg := h.group (dest := dest) (g := g)
    cases hd : depositGroup c s dest g with
    | mk s1 o =>
      rw [hd] at hg
      cases o with
      | none => exact Maps.deposit gs hg
      | some e => exact hg

/-- An operation of the NFT pallet that the environment allows. -/
theorem Maps.nftOp {c : Cfg} {s : St} (h : Maps c s) {op : Nft.Op} {n : Nft.St}
    (hop : ∀ id a ns k, op = .bridgedMint id a ns → s.nft.coll id = some k → k.origin = .xrpl)
    (hs : Nft.step c.nft s.nft op = .ok n) : Maps c { s with nft := n } := by
  refine ⟨h.nft.step ?_ hs, ?_, h.eth, h.bl⟩
  · cases op <;> try trivial
    intro k hk
    rw [hop _ _ _ k rfl hk]
    decide
  · intro b j hb
    obtain ⟨h1, k, hk, hg⟩ := h.root b j hb
    obtain ⟨k', hk', hg', _⟩ := eff_old h.nft.ai (Nft.step_eff hs) hk (by rw [hg]; decide) (by
      intro a ns e
      have := hop _ _ _ k e hk
      rw [hg] at this
      cases this)
    exact ⟨h1, k', hk', hg'.trans hg⟩

/-- One burn. -/
theorem Maps.burn {c : Cfg} {s : St} (h : Maps c s) {who : Acct} {id m : Nat} {n : Nft.St}
    (hs : Nft.doBurn s.nft who id m = .ok n) : Maps c { s with nft := n } :=
  h.nftOp (op := .burn who id m) (fun _ _ _ _ e => (nomatch e)) hs

end Verif.NftPeg
