import Verif.Xls20.Model

/-!
# Invariants of the XLS-20 bridge
-/

namespace Verif.Xls20

open Nft (Owns Eff)
open NftPeg (Ex)

/-! ## operations of the NFT pallet -/

/-- What any operation of the NFT pallet does to a collection: its origin stays, and new tokens are minted here
with new numbers or come over a bridge. -/
theorem eff_coll {c : Nft.Cfg} {s s' : Nft.St} {op : Nft.Op} (hai : Nft.AI c s) (e : Eff c s op s') {id : Nat}
    {k : Nft.Coll} (hk : s.coll id = some k) :
    ∃ k', s'.coll id = some k' ∧ k'.origin = k.origin ∧ k.next ≤ k'.next ∧ ∀ a n, Owns k'.owned a n →
      (∃ b, Owns k.owned b n) ∨ (k.origin = .root ∧ k.next ≤ n) ∨ ∃ b ns, op = .bridgedMint id b ns := by
  cases e with
  | same coll => exact ⟨k, by rw [coll, hk], rfl, le_refl _, fun a n h => Or.inl ⟨a, h⟩⟩
  | @new id' k' i uuid _ _ _ _ =>
    have hne : id ≠ id' := by
      rintro rfl
      rw [hai.fresh uuid] at hk
      cases hk
    exact ⟨k, by show upd s.coll id' _ id = _; rw [upd_ne _ _ hne, hk], rfl, le_refl _, fun a n h => Or.inl ⟨a, h⟩⟩
  | @set id' k1 k' coll owned origin next _ _ =>
    by_cases hid : id = id'
    · subst hid
      rw [hk] at coll
      cases coll
      exact ⟨k', upd_same _ _ _, origin, le_of_eq next.symm, fun a n h => Or.inl ⟨a, by rw [owned] at h; exact h⟩⟩
    · exact ⟨k, by show upd s.coll id' _ id = _; rw [upd_ne _ _ hid, hk], rfl, le_refl _, fun a n h => Or.inl ⟨a, h⟩⟩
  | @transfer id' k1 ns cur new o _ _ _ coll own add =>
    by_cases hid : id = id'
    · subst hid
      rw [hk] at coll
      cases coll
      refine ⟨_, upd_same _ _ _, rfl, le_refl _, fun a n h => Or.inl ?_⟩
      rcases (Nft.transfer_owns (hai.owners _ _ hk) add a n).mp h with h1 | h1
      · exact ⟨a, h1.1⟩
      · exact ⟨cur, (own n h1.2).1⟩
    · exact ⟨k, by show upd s.coll id' _ id = _; rw [upd_ne _ _ hid, hk], rfl, le_refl _, fun a n h => Or.inl ⟨a, h⟩⟩
  | @burn id' k1 n0 who _ _ _ coll _ =>
    by_cases hid : id = id'
    · subst hid
      rw [hk] at coll
      cases coll
      exact ⟨_, upd_same _ _ _, rfl, le_refl _, fun a n h => Or.inl ⟨a, ((Nft.burnFrom_owns a n).mp h).1⟩⟩
    · exact ⟨k, by show upd s.coll id' _ id = _; rw [upd_ne _ _ hid, hk], rfl, le_refl _, fun a n h => Or.inl ⟨a, h⟩⟩
  | @mint who id' q rcv ext k1 o L _ _ coll _ _ _ origin _ _ _ _ add =>
    by_cases hid : id = id'
    · subst hid
      rw [hk] at coll
      cases coll
      refine ⟨_, upd_same _ _ _, rfl, Nat.le_add_right _ _, fun a n h => ?_⟩
      rcases (Nft.addUser_owns add a n).mp h with h1 | ⟨_, h2⟩
      · exact Or.inl ⟨a, h1⟩
      · exact Or.inr (Or.inl ⟨origin, (List.mem_range'_1.mp h2).1⟩)
    · exact ⟨k, by show upd s.coll id' _ id = _; rw [upd_ne _ _ hid, hk], rfl, le_refl _, fun a n h => Or.inl ⟨a, h⟩⟩
  | @bridged id' k1 o who ns hop coll _ =>
    by_cases hid : id = id'
    · subst hid
      rw [hk] at coll
      cases coll
      exact ⟨_, upd_same _ _ _, rfl, le_refl _, fun a n _ => Or.inr (Or.inr ⟨_, _, hop⟩)⟩
    · exact ⟨k, by show upd s.coll id' _ id = _; rw [upd_ne _ _ hid, hk], rfl, le_refl _, fun a n h => Or.inl ⟨a, h⟩⟩

/-- A new collection that came over a bridge was created by that bridge. -/
theorem new_origin {c : Nft.Cfg} {s s' : Nft.St} {op : Nft.Op} (e : Eff c s op s') {id : Nat} {k' : Nft.Coll}
    (hk : s.coll id = none) (hk' : s'.coll id = some k') :
    k'.origin = .root ∨ ∃ o x, op = .createBridged o k'.origin x := by
  have key : ∀ {j : Nat} {k0 k1 : Nft.Coll}, s.coll j = some k0 → upd s.coll j (some k1) id = some k' → False := by
    intro j k0 k1 h0 h1
    by_cases hj : id = j
    · subst hj; rw [hk] at h0; cases h0
    · rw [upd_ne _ _ hj, hk] at h1; cases h1
  cases e with
  | same coll => rw [coll, hk] at hk'; cases hk'
  | @new id' k1 i uuid _ _ _ _ made =>
    change upd s.coll id' (some k1) id = _ at hk'
    by_cases hj : id = id'
    · subst hj; rw [upd_same] at hk'; cases hk'; exact made
    · rw [upd_ne _ _ hj, hk] at hk'; cases hk'
  | set coll => exact (key coll hk').elim
  | transfer _ _ _ coll => exact (key coll hk').elim
  | burn _ _ _ coll => exact (key coll hk').elim
  | mint _ _ coll => exact (key coll hk').elim
  | bridged _ coll => exact (key coll hk').elim

/-- Creating the collection of an XRPL issuer is what a bridge may do. -/
theorem create_eq {c : Nft.Cfg} {s : Nft.St} {o : Acct} :
    Nft.doCreate c s o 0 none none none .xrpl true = Nft.step c s (.createBridged o .xrpl true) := by
  simp only [Nft.step]
  rw [ensure_pos (p := Nft.Chain.xrpl ≠ Nft.Chain.root) (by decide)]
  rfl

theorem create_ok {c : Nft.Cfg} {s s' : Nft.St} {o : Acct} {id : Nat}
    (h : Nft.doCreate c s o 0 none none none .xrpl true = .ok s') (hid : Nft.nextUuid c s = .ok id) :
    Nft.nextAssetUuid s.nextId c.chainId = some id ∧
      s'.coll = upd s.coll id (some ⟨o, none, none, .xrpl, 0, 0, true, []⟩) := by
  simp only [Nft.doCreate, Nft.firstOwned, bind_ok, ensure_ok, pure_ok, if_true] at h
  obtain ⟨id', hid', _, _, _, _, o', ho, rfl⟩ := h
  cases ho
  rw [hid] at hid'
  cases hid'
  simp only [Nft.nextUuid, okOr_ok] at hid
  exact ⟨hid, rfl⟩

/-! ## the invariant -/

/-- A token stands for this XLS-20 token. -/
def Stands (s : St) (id n t : Nat) : Prop := Ex s.nft id n ∧ s.ids id n = some t

/-- Invariant of the pallet's own mappings; `S` are the tokens deposited so far. -/
structure Maps (c : Cfg) (s : St) (S : List Nat) : Prop where
  nft : Nft.Reach c.nft Nft.Bridged s.nft
  xrpl : ∀ p id, s.colls p = some id → ∃ k, s.nft.coll id = some k ∧ k.origin = .xrpl
  inj : ∀ p q id, s.colls p = some id → s.colls q = some id → p = q
  native : ∀ id n t, s.ids id n = some t → ∃ k, s.nft.coll id = some k ∧ k.origin ≠ .ethereum ∧
    (k.origin = .root → n < k.next) ∧
    (k.origin = .xrpl → s.colls (keyOf t) = some id ∧ seqOf t = n ∧ t ∈ S)
  dep : ∀ id k n, s.nft.coll id = some k → k.origin = .xrpl → Ex s.nft id n → ∃ t, s.ids id n = some t

/-- Every XLS-20 token that a token stands for or that is on offer is held by the door account, and in one of
these places only. `D` is the custody, `O` the tokens on offer. -/
structure Safe (s : St) (D : Nat → Bool) (O : List Nat) : Prop where
  held : ∀ id n t, Stands s id n t → D t = true
  one : ∀ id n id' n' t, Stands s id n t → Stands s id' n' t → id = id' ∧ n = n'
  offer : ∀ t ∈ O, D t = true ∧ O.count t = 1 ∧ ∀ id n, ¬ Stands s id n t

structure Inv (c : Cfg) (w : World) : Prop where
  maps : Maps c w.st w.seen
  safe : Safe w.st w.door (w.offers.map Prod.fst)

theorem Inv.genesis {c : Cfg} {w : World} (h : Genesis w) : Inv c w := by
  refine ⟨⟨.init h.nft, ?_, ?_, ?_, ?_⟩, ⟨?_, ?_, ?_⟩⟩
  · intro p id e; rw [h.colls] at e; cases e
  · intro p q id e; rw [h.colls] at e; cases e
  · intro id n t e; rw [h.ids] at e; cases e
  · intro id k n e; rw [h.nft.coll] at e; cases e
  · rintro id n t ⟨_, e⟩; rw [h.ids] at e; cases e
  · rintro id n id' n' t ⟨_, e⟩; rw [h.ids] at e; cases e
  · intro t ht; rw [h.offers] at ht; cases ht

/-- Fewer tokens stand for something: still safe. -/
theorem Safe.sub {s s' : St} {D : Nat → Bool} {O : List Nat} (h : Safe s D O)
    (hs : ∀ id n t, Stands s' id n t → Stands s id n t) : Safe s' D O :=
  ⟨fun id n t hx => h.held id n t (hs _ _ _ hx),
    fun id n id' n' t h1 h2 => h.one id n id' n' t (hs _ _ _ h1) (hs _ _ _ h2),
    fun t ht => ⟨(h.offer t ht).1, (h.offer t ht).2.1, fun id n hx => (h.offer t ht).2.2 id n (hs _ _ _ hx)⟩⟩

/-- A step of the NFT pallet that is no mint into an XRPL collection keeps the mappings, and what stands for what. -/
theorem Maps.nft_step {c : Cfg} {s : St} {S : List Nat} (h : Maps c s S) {n' : Nft.St} {op : Nft.Op}
    (hb : Nft.Bridged s.nft op) (hs : Nft.step c.nft s.nft op = .ok n')
    (h1 : ∀ o g x, op = .createBridged o g x → g = .ethereum)
    (h2 : ∀ id a ns, op = .bridgedMint id a ns → ∀ k, s.nft.coll id = some k → k.origin = .ethereum) :
    Maps c { s with nft := n' } S ∧ ∀ id n t, Stands { s with nft := n' } id n t → Stands s id n t := by
  have e := Nft.step_eff hs
  have hr : Nft.Reach c.nft Nft.Bridged n' := h.nft.step hb hs
  have hold : ∀ id k, s.nft.coll id = some k → ∃ k', n'.coll id = some k' ∧ k'.origin = k.origin ∧ k.next ≤ k'.next ∧
      ∀ a n, Owns k'.owned a n → (∃ b, Owns k.owned b n) ∨ (k.origin = .root ∧ k.next ≤ n) ∨ k.origin = .ethereum := by
    intro id k hk
    obtain ⟨k', hk', ho, hn, hx⟩ := eff_coll h.nft.ai e hk
    refine ⟨k', hk', ho, hn, fun a n ha => ?_⟩
    rcases hx a n ha with h3 | h3 | ⟨b, ns, h3⟩
    · exact Or.inl h3
    · exact Or.inr (Or.inl h3)
    · exact Or.inr (Or.inr (h2 _ _ _ h3 k hk))
  have hstand : ∀ id n t, Stands { s with nft := n' } id n t → Stands s id n t := by
    rintro id n t ⟨⟨k', hk', a, ha⟩, hid⟩
    obtain ⟨k, hk, hne, hroot, _⟩ := h.native id n t hid
    obtain ⟨k2, hk2, ho, _, hx⟩ := hold id k hk
    dsimp only at hk'
    rw [hk2] at hk'
    cases hk'
    rcases hx a n ha with ⟨b, hb'⟩ | ⟨h3, h4⟩ | h3
    · exact ⟨⟨k, hk, b, hb'⟩, hid⟩
    · have := hroot h3
      omega
    · exact absurd h3 hne
  refine ⟨⟨hr, ?_, h.inj, ?_, ?_⟩, hstand⟩
  · intro p id hp
    obtain ⟨k, hk, ho⟩ := h.xrpl p id hp
    obtain ⟨k2, hk2, ho2, hn2, _⟩ := hold id k hk
    exact ⟨k2, hk2, ho2.trans ho⟩
  · intro id n t hid
    obtain ⟨k, hk, hne, hroot, hx⟩ := h.native id n t hid
    obtain ⟨k2, hk2, ho2, hn2, _⟩ := hold id k hk
    refine ⟨k2, hk2, by rw [ho2]; exact hne, fun h3 => ?_, fun h3 => hx (ho2 ▸ h3)⟩
    exact lt_of_lt_of_le (hroot (ho2 ▸ h3)) hn2
  · rintro id k' n hk' hox ⟨k2, hk2, a, ha⟩
    dsimp only at hk' hk2
    rw [hk'] at hk2
    cases hk2
    cases hk : s.nft.coll id with
    | none =>
      rcases new_origin e hk hk' with h3 | ⟨o, x, h3⟩
      · rw [hox] at h3; cases h3
      · have := h1 _ _ _ h3
        rw [hox] at this
        cases this
    | some k =>
      obtain ⟨k2, hk2, ho2, _, hx⟩ := hold id k hk
      rw [hk'] at hk2
      cases hk2
      have hko : k.origin = .xrpl := ho2 ▸ hox
      rcases hx a n ha with ⟨b, hb'⟩ | ⟨h3, _⟩ | h3
      · exact h.dep id k n hk hko ⟨k, hk, b, hb'⟩
      · rw [hko] at h3; cases h3
      · rw [hko] at h3; cases h3

theorem Maps.more {c : Cfg} {s : St} {S S' : List Nat} (h : Maps c s S) (hS : ∀ t ∈ S, t ∈ S') : Maps c s S' :=
  ⟨h.nft, h.xrpl, h.inj, fun id n t e => by
    obtain ⟨k, hk, h1, h2, h3⟩ := h.native id n t e
    exact ⟨k, hk, h1, h2, fun hx => ⟨(h3 hx).1, (h3 hx).2.1, hS t (h3 hx).2.2⟩⟩, h.dep⟩

/-- The fields the invariant does not speak of. -/
theorem Maps.same {c : Cfg} {s s' : St} {S : List Nat} (h : Maps c s S) (h1 : s'.nft = s.nft) (h2 : s'.ids = s.ids)
    (h3 : s'.colls = s.colls) : Maps c s' S := by
  refine ⟨by rw [h1]; exact h.nft, ?_, ?_, ?_, ?_⟩
  · rw [h1, h3]; exact h.xrpl
  · rw [h3]; exact h.inj
  · rw [h1, h2, h3]; exact h.native
  · rw [h1, h2]; exact h.dep

theorem Stands.same {s s' : St} (h1 : s'.nft = s.nft) (h2 : s'.ids = s.ids) {id n t : Nat} (h : Stands s' id n t) :
    Stands s id n t := by
  unfold Stands at *
  rw [h1, h2] at h
  exact h

/-- The door account receives a token. -/
theorem Safe.recv {s s' : St} {D : Nat → Bool} {O : List Nat} {t : Nat} (h : Safe s D O) (ht : D t = false)
    {id n : Nat} (hs : ∀ i m t', Stands s' i m t' → Stands s i m t' ∨ (i = id ∧ m = n ∧ t' = t)) :
    Safe s' (upd D t true) O := by
  have hne : ∀ i m, ¬ Stands s i m t := fun i m hx => by
    have := h.held i m t hx
    rw [ht] at this
    cases this
  refine ⟨fun i m t' hx => ?_, fun i m i' m' t' h1 h2 => ?_, fun t' ht' => ?_⟩
  · by_cases he : t' = t
    · rw [he, upd_same]
    · rw [upd_ne _ _ he]
      rcases hs i m t' hx with h1 | ⟨_, _, h1⟩
      · exact h.held i m t' h1
      · exact absurd h1 he
  · rcases hs i m t' h1 with h3 | ⟨h3, h4, h5⟩ <;> rcases hs i' m' t' h2 with h6 | ⟨h6, h7, h8⟩
    · exact h.one i m i' m' t' h3 h6
    · rw [h8] at h3; exact absurd h3 (hne _ _)
    · rw [h5] at h6; exact absurd h6 (hne _ _)
    · exact ⟨h3.trans h6.symm, h4.trans h7.symm⟩
  · obtain ⟨h1, h2, h3⟩ := h.offer t' ht'
    have he : t' ≠ t := by
      rintro rfl
      rw [ht] at h1
      cases h1
    refine ⟨by rw [upd_ne _ _ he]; exact h1, h2, fun i m hx => ?_⟩
    rcases hs i m t' hx with h4 | ⟨_, _, h4⟩
    · exact h3 i m h4
    · exact he h4

/-! ## deposits -/

/-- The state after the collection of a deposit is found or created. -/
theorem Maps.create {c : Cfg} {s : St} {S : List Nat} (h : Maps c s S) {n : Nft.St} {id : Nat} {p : Nat × Nat}
    (hp : s.colls p = none) (hid : Nft.nextUuid c.nft s.nft = .ok id)
    (hn : Nft.doCreate c.nft s.nft c.palletAcct 0 none none none .xrpl true = .ok n) :
    Maps c { s with
      nft := n
      colls := upd s.colls p (some id) } S ∧ ∀ j m, Ex n j m ↔ Ex s.nft j m := by
  obtain ⟨huuid, hcoll⟩ := create_ok hn hid
  have hfresh := h.nft.ai.fresh huuid
  rw [create_eq] at hn
  have hid' : ∀ q, s.colls q ≠ some id := by
    intro q hq
    obtain ⟨k, hk, _⟩ := h.xrpl q id hq
    rw [hfresh] at hk
    cases hk
  have hcne : ∀ j k, s.nft.coll j = some k → n.coll j = some k := by
    intro j k hk
    rw [hcoll, upd_ne _ _ (by rintro rfl; rw [hfresh] at hk; cases hk)]
    exact hk
  have hex : ∀ j m, Ex n j m ↔ Ex s.nft j m := by
    intro j m
    constructor
    · rintro ⟨k, hk, a, ha⟩
      by_cases hj : j = id
      · subst hj
        rw [hcoll, upd_same] at hk
        cases hk
        obtain ⟨e, he, _⟩ := ha
        cases he
      · rw [hcoll, upd_ne _ _ hj] at hk
        exact ⟨k, hk, a, ha⟩
    · rintro ⟨k, hk, a, ha⟩
      exact ⟨k, hcne j k hk, a, ha⟩
  refine ⟨⟨h.nft.step (op := .createBridged c.palletAcct .xrpl true) trivial hn, ?_, ?_, ?_, ?_⟩, hex⟩
  · intro q j hq
    dsimp only at hq ⊢
    by_cases hqp : q = p
    · subst hqp
      rw [upd_same] at hq
      cases hq
      exact ⟨_, by rw [hcoll, upd_same], rfl⟩
    · rw [upd_ne _ _ hqp] at hq
      obtain ⟨k, hk, ho⟩ := h.xrpl q j hq
      exact ⟨k, hcne j k hk, ho⟩
  · intro q r j hq hr
    dsimp only at hq hr
    by_cases hqp : q = p <;> by_cases hrp : r = p
    · rw [hqp, hrp]
    · rw [hqp, upd_same] at hq
      cases hq
      rw [upd_ne _ _ hrp] at hr
      exact absurd hr (hid' r)
    · rw [hrp, upd_same] at hr
      cases hr
      rw [upd_ne _ _ hqp] at hq
      exact absurd hq (hid' q)
    · rw [upd_ne _ _ hqp] at hq
      rw [upd_ne _ _ hrp] at hr
      exact h.inj q r j hq hr
  · intro j m t hj
    obtain ⟨k, hk, h1, h2, h3⟩ := h.native j m t hj
    refine ⟨k, hcne j k hk, h1, h2, fun hx => ⟨?_, (h3 hx).2⟩⟩
    dsimp only
    rw [upd_ne _ _ (by rintro e; rw [e] at h3; rw [hp] at h3; cases (h3 hx).1)]
    exact (h3 hx).1
  · intro j k m hk hx hm
    dsimp only at hk hm ⊢
    obtain ⟨k1, hk1, a, ha⟩ := (hex j m).mp hm
    have := hcne j k1 hk1
    rw [hk] at this
    cases this
    exact h.dep j k m hk1 hx ⟨k, hk1, a, ha⟩

/-- The token of a deposit is not on the chain. -/
theorem Inv.absent {c : Cfg} {s : St} {S : List Nat} {D : Nat → Bool} {O : List Nat} (h : Maps c s S) (hs : Safe s D O)
    {t id : Nat} (hid : s.colls (keyOf t) = some id) (hD : D t = false)
    (hu : ∀ t' ∈ S, issuerOf t' = issuerOf t → seqOf t' = seqOf t → t' = t) : ¬ Ex s.nft id (seqOf t) := by
  intro hx
  obtain ⟨k, hk, ho⟩ := h.xrpl _ _ hid
  obtain ⟨t', ht'⟩ := h.dep id k _ hk ho hx
  obtain ⟨k1, hk1, _, _, h3⟩ := h.native id _ t' ht'
  rw [hk] at hk1
  cases hk1
  obtain ⟨h4, h5, h6⟩ := h3 ho
  have he := hu t' h6 (congrArg Prod.fst (h.inj _ _ _ h4 hid)) h5
  subst he
  have := hs.held id _ t' ⟨hx, ht'⟩
  rw [hD] at this
  cases this

/-- Minting the token of a deposit. -/
theorem Maps.mintInto {c : Cfg} {s : St} {S : List Nat} (h : Maps c s S) {rcv : Acct} {t id : Nat}
    (hid : s.colls (keyOf t) = some id) (ht : t ∈ S) (hnew : ¬ Ex s.nft id (seqOf t)) :
    Maps c (Xls20.mintInto c s rcv t id).1 S ∧
      (∀ j m t', Stands (Xls20.mintInto c s rcv t id).1 j m t' →
        Stands s j m t' ∨ (j = id ∧ m = seqOf t ∧ t' = t)) ∧
      (Xls20.mintInto c s rcv t id).1.colls = s.colls := by
  unfold Xls20.mintInto
  split
  · exact ⟨h, fun j m t' hx => Or.inl hx, rfl⟩
  · rename_i n hn
    obtain ⟨k, hk, ho⟩ := h.xrpl _ _ hid
    obtain ⟨k', hk', ho', howns, hother, _, _⟩ := NftPeg.bridgedMint_ok hk hn
    have hb : Nft.step c.nft s.nft (.bridgedMint id rcv [seqOf t]) = .ok n := hn
    have hr : Nft.Reach c.nft Nft.Bridged n := h.nft.step (by
      intro k1 hk1
      rw [hk] at hk1
      cases hk1
      rw [ho]
      decide) hb
    have hex : ∀ j m, Ex n j m → Ex s.nft j m ∨ (j = id ∧ m = seqOf t) := by
      rintro j m ⟨k1, hk1, a, ha⟩
      by_cases hj : j = id
      · subst hj
        rw [hk'] at hk1
        cases hk1
        rcases howns a m ha with h1 | ⟨_, h1, _⟩
        · exact Or.inl ⟨k, hk, a, h1⟩
        · exact Or.inr ⟨rfl, List.mem_singleton.mp h1⟩
      · rw [hother j hj] at hk1
        exact Or.inl ⟨k1, hk1, a, ha⟩
    have hcoll : ∀ j k1, s.nft.coll j = some k1 → ∃ k2, n.coll j = some k2 ∧ k2.origin = k1.origin ∧
        (k1.origin = .root → k2.next = k1.next) := by
      intro j k1 hk1
      by_cases hj : j = id
      · subst hj
        rw [hk] at hk1
        cases hk1
        exact ⟨k', hk', ho', fun hx => by rw [ho] at hx; cases hx⟩
      · exact ⟨k1, by rw [hother j hj]; exact hk1, rfl, fun _ => rfl⟩
    refine ⟨⟨hr, ?_, h.inj, ?_, ?_⟩, ?_, rfl⟩
    · intro p j hp
      obtain ⟨k1, hk1, h1⟩ := h.xrpl p j hp
      obtain ⟨k2, hk2, h2, _⟩ := hcoll j k1 hk1
      exact ⟨k2, hk2, h2.trans h1⟩
    · intro j m t' hj
      dsimp only at hj ⊢
      by_cases he : j = id ∧ m = seqOf t
      · obtain ⟨rfl, rfl⟩ := he
        rw [upd_same, upd_same] at hj
        cases hj
        exact ⟨k', hk', by rw [ho', ho]; decide, fun hx => (by rw [ho', ho] at hx; cases hx),
          fun _ => ⟨hid, rfl, ht⟩⟩
      · have hj' : s.ids j m = some t' := by
          by_cases hji : j = id
          · subst hji
            rw [upd_same, upd_ne _ _ (fun e => he ⟨rfl, e⟩)] at hj
            exact hj
          · rw [upd_ne _ _ hji] at hj
            exact hj
        obtain ⟨k1, hk1, h1, h2, h3⟩ := h.native j m t' hj'
        obtain ⟨k2, hk2, h4, h5⟩ := hcoll j k1 hk1
        exact ⟨k2, hk2, by rw [h4]; exact h1, fun hx => (by rw [h5 (h4 ▸ hx)]; exact h2 (h4 ▸ hx)),
          fun hx => h3 (h4 ▸ hx)⟩
    · intro j k1 m hk1 hx hm
      dsimp only at hk1 hm ⊢
      by_cases he : j = id ∧ m = seqOf t
      · obtain ⟨rfl, rfl⟩ := he
        exact ⟨t, by rw [upd_same, upd_same]⟩
      · rcases hex j m hm with h1 | h1
        · obtain ⟨k2, hk2, a, ha⟩ := h1
          obtain ⟨k3, hk3, h4, _⟩ := hcoll j k2 hk2
          rw [hk1] at hk3
          cases hk3
          obtain ⟨t', ht'⟩ := h.dep j k2 m hk2 (h4 ▸ hx) ⟨k2, hk2, a, ha⟩
          refine ⟨t', ?_⟩
          by_cases hji : j = id
          · subst hji
            rw [upd_same, upd_ne _ _ (fun e => he ⟨rfl, e⟩)]
            exact ht'
          · rw [upd_ne _ _ hji]
            exact ht'
        · exact absurd h1 he
    · rintro j m t' ⟨h1, h2⟩
      dsimp only at h1 h2
      by_cases he : j = id ∧ m = seqOf t
      · obtain ⟨rfl, rfl⟩ := he
        rw [upd_same, upd_same] at h2
        cases h2
        exact Or.inr ⟨rfl, rfl, rfl⟩
      · refine Or.inl ⟨(hex j m h1).resolve_right he, ?_⟩
        by_cases hji : j = id
        · subst hji
          rw [upd_same, upd_ne _ _ (fun e => he ⟨rfl, e⟩)] at h2
          exact h2
        · rw [upd_ne _ _ hji] at h2
          exact h2

/-- A deposit keeps the invariant. -/
theorem Inv.deposit {c : Cfg} {s : St} {S : List Nat} {D : Nat → Bool} {O : List Nat} (h : Maps c s S) (hs : Safe s D O)
    {t : Nat} {rcv : Acct} (hD : D t = false)
    (hu : ∀ t' ∈ S, issuerOf t' = issuerOf t → seqOf t' = seqOf t → t' = t) :
    Maps c (Xls20.deposit c s rcv t).1 (t :: S) ∧ Safe (Xls20.deposit c s rcv t).1 (upd D t true) O := by
  have hm : Maps c s (t :: S) := h.more (fun x hx => List.mem_cons_of_mem _ hx)
  have hu' : ∀ t' ∈ t :: S, issuerOf t' = issuerOf t → seqOf t' = seqOf t → t' = t := by
    intro t' ht'
    rcases List.mem_cons.mp ht' with rfl | h1
    · intros; rfl
    · exact hu t' h1
  have hno : ∀ s' : St, s' = s → Maps c s' (t :: S) ∧ Safe s' (upd D t true) O := by
    rintro s' rfl
    exact ⟨hm, hs.recv (id := 0) (n := 0) hD (fun i m t' hx => Or.inl hx)⟩
  unfold Xls20.deposit
  split
  · exact hno _ rfl
  · split
    · exact hno _ rfl
    · split
      · rename_i id hid
        have habs := Inv.absent hm hs hid hD hu'
        obtain ⟨h1, h2, _⟩ := hm.mintInto (rcv := rcv) hid List.mem_cons_self habs
        exact ⟨h1, hs.recv hD h2⟩
      · rename_i hnone
        split
        · exact hno _ rfl
        · rename_i id hid
          split
          · exact hno _ rfl
          · rename_i n hn
            obtain ⟨h1, hex⟩ := hm.create hnone hid hn
            have hs1 : ∀ i m t', Stands { s with
                nft := n
                colls := upd s.colls (keyOf t) (some id) } i m t' → Stands s i m t' :=
              fun i m t' hx => ⟨(hex i m).mp hx.1, hx.2⟩
            have hid' : upd s.colls (keyOf t) (some id) (keyOf t) = some id := upd_same _ _ _
            have habs := Inv.absent h1 (hs.sub hs1) hid' hD hu'
            obtain ⟨h2, h3, _⟩ := h1.mintInto (rcv := rcv) hid' List.mem_cons_self habs
            exact ⟨h2, (hs.sub hs1).recv hD h3⟩

/-! ## requests of the relayer -/

theorem insertAll_ok {k : Nft.Coll} {id : Nat} : ∀ {l : List (Nat × Nat)} {f f' : Nat → Nat → Option Nat},
    insertAll k id f l = .ok f' →
    (∀ p ∈ l, Nft.tokenExists k.owned p.1 = true ∧ f id p.1 = none ∧ f' id p.1 = some p.2) ∧ (l.map Prod.fst).Nodup ∧
    ∀ j m, f' j m = f j m ∨ (j = id ∧ f j m = none ∧ ∃ t, (m, t) ∈ l ∧ f' j m = some t)
  | [], f, f', h => by
    cases h
    exact ⟨fun p hp => (by cases hp), List.nodup_nil, fun j m => Or.inl rfl⟩
  | (n, t) :: l, f, f', h => by
    simp only [insertAll, bind_ok, ensure_ok] at h
    obtain ⟨_, he, _, hn, h⟩ := h
    obtain ⟨h1, h2, h3⟩ := insertAll_ok h
    have hnl : n ∉ l.map Prod.fst := by
      intro hx
      obtain ⟨p, hp, rfl⟩ := List.mem_map.mp hx
      have := (h1 p hp).2.1
      rw [upd_same, upd_same] at this
      cases this
    have hf'n : f' id n = some t := by
      rcases h3 id n with h4 | ⟨_, _, t', h4, _⟩
      · rw [h4, upd_same, upd_same]
      · exact absurd (List.mem_map_of_mem h4) hnl
    refine ⟨?_, ?_, ?_⟩
    · intro p hp
      rcases List.mem_cons.mp hp with rfl | hp'
      · exact ⟨he, hn, hf'n⟩
      · obtain ⟨h4, h5, h6⟩ := h1 p hp'
        have hne : p.1 ≠ n := by
          intro e
          exact hnl (List.mem_map.mpr ⟨p, hp', e⟩)
        rw [upd_same, upd_ne _ _ hne] at h5
        exact ⟨h4, h5, h6⟩
    · rw [List.map_cons]
      exact List.nodup_cons.mpr ⟨hnl, h2⟩
    · intro j m
      by_cases hjm : j = id ∧ m = n
      · obtain ⟨rfl, rfl⟩ := hjm
        exact Or.inr ⟨rfl, hn, t, List.mem_cons_self, hf'n⟩
      · have hsame : upd f id (upd (f id) n (some t)) j m = f j m := by
          by_cases hj : j = id
          · subst hj
            rw [upd_same, upd_ne _ _ (fun e => hjm ⟨rfl, e⟩)]
          · rw [upd_ne _ _ hj]
        rcases h3 j m with h4 | ⟨h4, h5, t', h6, h7⟩
        · exact Or.inl (h4.trans hsame)
        · rw [hsame] at h5
          exact Or.inr ⟨h4, h5, t', List.mem_cons_of_mem _ h6, h7⟩

theorem fulfil_ok {c : Cfg} {s s' : St} {who : Acct} {id : Nat} {l : List (Nat × Nat)}
    (h : fulfil c s who id l = .ok s') :
    s.migrating = false ∧ l ≠ [] ∧ s.relayer = some who ∧ l.length ≤ c.maxPerMint ∧
      ∃ k f, s.nft.coll id = some k ∧ insertAll k id s.ids l = .ok f ∧ s' = { s with ids := f } := by
  simp only [fulfil, bind_ok, ensure_ok, okOr_ok, pure_ok] at h
  obtain ⟨_, h1, _, h2, _, h3, _, h4, k, hk, f, hf, rfl⟩ := h
  exact ⟨h2, h3, h4.symm, h1, k, f, hk, hf, rfl⟩

theorem Inv.fulfil {c : Cfg} {s s' : St} {S : List Nat} {D : Nat → Bool} {O : List Nat} (h : Maps c s S) (hs : Safe s D O)
    {who : Acct} {id : Nat} {l : List (Nat × Nat)} (hf : fulfil c s who id l = .ok s') (hnd : (l.map Prod.snd).Nodup)
    (hD : ∀ p ∈ l, D p.2 = false) (hroot : ∀ k, s.nft.coll id = some k → k.origin = .root) :
    Maps c s' S ∧ Safe s' (fun t => decide (t ∈ l.map Prod.snd) || D t) O := by
  obtain ⟨_, _, _, _, k, f, hk, hins, rfl⟩ := fulfil_ok hf
  obtain ⟨h1, h2, h3⟩ := insertAll_ok hins
  have hko := hroot k hk
  have hst : ∀ j m t, Stands { s with ids := f } j m t → Stands s j m t ∨ (j = id ∧ (m, t) ∈ l) := by
    rintro j m t ⟨hx, ht⟩
    rcases h3 j m with h4 | ⟨h4, _, t', h5, h6⟩
    · dsimp only at ht
      rw [h4] at ht
      exact Or.inl ⟨hx, ht⟩
    · dsimp only at ht
      rw [h6] at ht
      cases ht
      exact Or.inr ⟨h4, h5⟩
  have hnew : ∀ m t, (m, t) ∈ l → ∀ j m', ¬ Stands s j m' t := by
    intro m t hm j m' hx
    have := hs.held j m' t hx
    rw [hD _ hm] at this
    cases this
  refine ⟨⟨h.nft, h.xrpl, h.inj, ?_, ?_⟩, ⟨?_, ?_, ?_⟩⟩
  · intro j m t ht
    dsimp only at ht
    rcases h3 j m with h4 | ⟨rfl, _, t', h5, h6⟩
    · rw [h4] at ht
      exact h.native j m t ht
    · rw [h6] at ht
      cases ht
      refine ⟨k, hk, by rw [hko]; decide, fun _ => ?_, fun hx => by rw [hko] at hx; cases hx⟩
      obtain ⟨a, ha⟩ := Nft.tokenExists_iff.mp (h1 _ h5).1
      obtain ⟨k1, hk1, hlt⟩ := h.nft.bi.minted j m (h.nft.bi.born j k a m hk ha)
      rw [hk] at hk1
      cases hk1
      exact hlt hko
  · intro j k1 m hk1 hx hm
    obtain ⟨t, ht⟩ := h.dep j k1 m hk1 hx hm
    refine ⟨t, ?_⟩
    dsimp only
    rcases h3 j m with h4 | ⟨rfl, h4, _⟩
    · rw [h4]; exact ht
    · rw [ht] at h4
      cases h4
  · intro j m t hx
    rcases hst j m t hx with h4 | ⟨_, h4⟩
    · simp only [hs.held j m t h4, Bool.or_true]
    · simp only [List.mem_map_of_mem (f := Prod.snd) h4, decide_true, Bool.true_or]
  · intro j m j' m' t hx hy
    rcases hst j m t hx with h4 | ⟨h4, h5⟩ <;> rcases hst j' m' t hy with h6 | ⟨h6, h7⟩
    · exact hs.one j m j' m' t h4 h6
    · exact absurd h4 (hnew _ _ h7 _ _)
    · exact absurd h6 (hnew _ _ h5 _ _)
    · refine ⟨h4.trans h6.symm, ?_⟩
      exact congrArg Prod.fst (List.inj_on_of_nodup_map hnd h5 h7 rfl)
  · intro t ht
    obtain ⟨h4, h5, h6⟩ := hs.offer t ht
    refine ⟨by simp only [h4, Bool.or_true], h5, fun j m hx => ?_⟩
    rcases hst j m t hx with h7 | ⟨_, h7⟩
    · exact h6 j m h7
    · rw [hD _ h7] at h4
      cases h4

/-! ## withdrawals -/

theorem withdraw_ok {s s' : St} {who : Acct} {id n dest : Nat} {ok : Bool} {o : Nat × Nat}
    (h : withdraw s who id n dest ok = .ok (s', o)) :
    s.migrating = false ∧ ok = true ∧ o.2 = dest ∧ s.ids id n = some o.1 ∧
      (∃ k, s.nft.coll id = some k ∧ k.xls20 = true) ∧
      ∃ f, Nft.doBurn s.nft who id n = .ok f ∧ s' = { s with nft := f } := by
  simp only [withdraw, idOf, bind_ok, ensure_ok, okOr_ok, pure_ok, Prod.mk.injEq] at h
  obtain ⟨k, hk, _, hx, f, hf, t, ht, _, hok, rfl, rfl⟩ := h
  split at ht
  · cases ht
  · rename_i hm
    exact ⟨by simpa using hm, hok, rfl, ht, ⟨k, hk, hx⟩, f, hf, rfl⟩

/-- Operations of the NFT pallet. -/
theorem nftStep_ok {c : Cfg} {s s' : St} {op : Nft.Op} (h : nftStep c s op = .ok s') :
    ∃ n n', Nft.step c.nft s.nft op = .ok n ∧ (n' = n ∨ ∃ L, n' = { n with ledger := L }) ∧
      s'.nft = n' ∧ s'.ids = s.ids ∧ s'.colls = s.colls ∧ s'.migrating = s.migrating ∧ s'.fee = s.fee ∧
      s'.relayer = s.relayer := by
  have gen : ∀ op', (Nft.step c.nft s.nft op').map (fun n => { s with nft := n }) = .ok s' →
      ∃ n n', Nft.step c.nft s.nft op' = .ok n ∧ (n' = n ∨ ∃ L, n' = { n with ledger := L }) ∧
      s'.nft = n' ∧ s'.ids = s.ids ∧ s'.colls = s.colls ∧ s'.migrating = s.migrating ∧ s'.fee = s.fee ∧
      s'.relayer = s.relayer := by
    intro op' h
    cases hn : Nft.step c.nft s.nft op' with
    | error e => rw [hn] at h; cases h
    | ok n =>
      rw [hn] at h
      cases h
      exact ⟨n, n, rfl, Or.inl rfl, rfl, rfl, rfl, rfl, rfl, rfl⟩
  cases op with
  | mint who id q rcv ext =>
    simp only [nftStep, mint, bind_ok, okOr_ok] at h
    obtain ⟨n, hn, k, hk, h⟩ := h
    refine ⟨n, s'.nft, hn, ?_⟩
    split at h
    · simp only [request, bind_ok, pure_ok] at h
      obtain ⟨L, _, rfl⟩ := h
      exact ⟨Or.inr ⟨L, rfl⟩, rfl, rfl, rfl, rfl, rfl, rfl⟩
    · cases h
      exact ⟨Or.inl rfl, rfl, rfl, rfl, rfl, rfl, rfl⟩
  | _ => exact gen _ h

theorem reRequest_ok {c : Cfg} {s s' : St} {who : Acct} {id : Nat} {ns : List Nat}
    (h : reRequest c s who id ns = .ok s') :
    ns.length ≤ c.maxPerMint ∧ ns ≠ [] ∧
    (∃ k, s.nft.coll id = some k ∧ k.owner = who ∧ k.xls20 = true ∧
      (∀ n ∈ ns, Nft.tokenExists k.owned n = true ∧ s.ids id n = none)) ∧
    ∃ L, payFee c s s.nft.ledger who ns.length = .ok L ∧ s' = { s with
      nft := { s.nft with ledger := L }
      requests := s.requests ++ [(id, ns)] } := by
  simp only [reRequest, request, bind_ok, ensure_ok, okOr_ok, pure_ok] at h
  obtain ⟨_, h1, _, _, _, h2, k, hk, _, h3, _, h4, _, h5, _, h6, L, hL, rfl⟩ := h
  exact ⟨h1, h2, ⟨k, hk, h3, h4, fun n hn => ⟨h5 n hn, h6 n hn⟩⟩, L, hL, rfl⟩

theorem Inv.step {c : Cfg} {w w' : World} {op : Op} (h : Inv c w) (hE : NoRemap w op) (hs : step c w op = .ok w') :
    Inv c w' := by
  have hm := h.maps
  have hsafe := h.safe
  cases op with
  | deposit rcv t =>
    cases hs
    obtain ⟨h1, h2⟩ := Inv.deposit hm hsafe (rcv := rcv) hE.1.1 hE.1.2
    exact ⟨h1, h2⟩
  | withdraw who id n dest ok =>
    simp only [Xls20.step, bind_ok, pure_ok, Prod.exists] at hs
    obtain ⟨s1, t, d, hw, rfl⟩ := hs
    obtain ⟨_, _, _, hid, _, f, hf, rfl⟩ := withdraw_ok hw
    have hb : Nft.step c.nft w.st.nft (.burn who id n) = .ok f := hf
    obtain ⟨h1, h2⟩ := hm.nft_step (op := .burn who id n) trivial hb (fun _ _ _ e => by cases e) (fun _ _ _ e => by cases e)
    refine ⟨h1, ?_⟩
    have hex := NftPeg.burn_ex hm.nft hf
    obtain ⟨k, hk, hown, _⟩ := NftPeg.doBurn_ok hf
    have hst : Stands w.st id n t := ⟨⟨k, hk, who, hown⟩, hid⟩
    have hno : ∀ i m, ¬ Stands { w.st with nft := f } i m t := by
      intro i m hx
      obtain ⟨rfl, rfl⟩ := hsafe.one i m id n t (h2 i m t hx) hst
      exact ((hex i m).mp hx.1).2 ⟨rfl, rfl⟩
    have hsub := hsafe.sub h2
    have htO : t ∉ w.offers.map Prod.fst := fun hx => (hsafe.offer t hx).2.2 id n hst
    refine ⟨hsub.held, hsub.one, fun t' ht' => ?_⟩
    dsimp only at ht' ⊢
    rw [List.map_append, List.mem_append, List.map_cons, List.map_nil, List.mem_singleton] at ht'
    rw [List.map_append, List.count_append, List.map_cons, List.map_nil]
    rcases ht' with h3 | h3
    · obtain ⟨h4, h5, h6⟩ := hsub.offer t' h3
      refine ⟨h4, ?_, h6⟩
      have : t' ≠ t := by rintro rfl; exact htO h3
      rw [h5, List.count_singleton, if_neg (by simpa using Ne.symm this)]
    · rw [h3]
      refine ⟨hsafe.held id n t hst, ?_, hno⟩
      rw [List.count_eq_zero_of_not_mem htO, List.count_singleton, if_pos (by simp)]
  | accept i =>
    simp only [Xls20.step, bind_ok, okOr_ok, pure_ok] at hs
    obtain ⟨o, ho, rfl⟩ := hs
    refine ⟨hm, ?_⟩
    dsimp only
    have hmem : o.1 ∈ w.offers.map Prod.fst := List.mem_map_of_mem (List.mem_of_getElem? ho)
    obtain ⟨h1, h2, h3⟩ := hsafe.offer o.1 hmem
    have hsplit : w.offers.map Prod.fst = (w.offers.take i).map Prod.fst ++ o.1 :: (w.offers.drop (i + 1)).map Prod.fst := by
      obtain ⟨hi, rfl⟩ := List.getElem?_eq_some_iff.mp ho
      rw [← List.map_cons, ← List.map_append, List.getElem_cons_drop, List.take_append_drop]
    have herase : (w.offers.eraseIdx i).map Prod.fst = (w.offers.take i).map Prod.fst ++ (w.offers.drop (i + 1)).map Prod.fst := by
      rw [List.eraseIdx_eq_take_drop_succ, List.map_append]
    have hcount : ∀ t, (w.offers.map Prod.fst).count t =
        ((w.offers.eraseIdx i).map Prod.fst).count t + if o.1 = t then 1 else 0 := by
      intro t
      rw [hsplit, herase, List.count_append, List.count_append, List.count_cons]
      simp only [beq_iff_eq]
      omega
    have hgone : o.1 ∉ (w.offers.eraseIdx i).map Prod.fst := by
      have := hcount o.1
      rw [h2, if_pos rfl] at this
      exact List.count_eq_zero.mp (by omega)
    refine ⟨fun id n t hx => ?_, hsafe.one, fun t ht => ?_⟩
    · rw [upd_ne _ _ (by rintro rfl; exact h3 id n hx)]
      exact hsafe.held id n t hx
    · have hne : t ≠ o.1 := by rintro rfl; exact hgone ht
      have hin : t ∈ w.offers.map Prod.fst := by
        rw [herase, List.mem_append] at ht
        rw [hsplit, List.mem_append, List.mem_cons]
        tauto
      obtain ⟨h4, h5, h6⟩ := hsafe.offer t hin
      refine ⟨by rw [upd_ne _ _ hne]; exact h4, ?_, h6⟩
      have := hcount t
      rw [h5, if_neg (Ne.symm hne)] at this
      omega
  | reRequest who id ns =>
    simp only [Xls20.step, bind_ok, pure_ok] at hs
    obtain ⟨s1, hr, rfl⟩ := hs
    obtain ⟨_, _, _, L, hL, rfl⟩ := reRequest_ok hr
    obtain ⟨h1, h2⟩ := hm.nft_step (op := .ledger L) trivial rfl (fun _ _ _ e => by cases e) (fun _ _ _ e => by cases e)
    exact ⟨h1.same rfl rfl rfl, hsafe.sub (fun id n t hx => h2 id n t (Stands.same (s := { w.st with nft := { w.st.nft with ledger := L } }) rfl rfl hx))⟩
  | fulfil who id l =>
    simp only [Xls20.step, bind_ok, pure_ok] at hs
    obtain ⟨s1, hr, rfl⟩ := hs
    obtain ⟨h1, h2⟩ := Inv.fulfil hm hsafe hr hE.1.1 hE.1.2.1 hE.1.2.2
    exact ⟨h1, h2⟩
  | setRelayer r => cases hs; exact ⟨hm.same rfl rfl rfl, hsafe.sub (fun id n t hx => hx.same rfl rfl)⟩
  | setFee f => cases hs; exact ⟨hm.same rfl rfl rfl, hsafe.sub (fun id n t hx => hx.same rfl rfl)⟩
  | setMappings l => exact absurd rfl (hE.2 l)
  | migration b => cases hs; exact ⟨hm.same rfl rfl rfl, hsafe.sub (fun id n t hx => hx.same rfl rfl)⟩
  | nft op =>
    simp only [Xls20.step, bind_ok, pure_ok] at hs
    obtain ⟨s1, hr, rfl⟩ := hs
    obtain ⟨n, n', hn, hL, h1, h2, h3, _⟩ := nftStep_ok hr
    have hb : Nft.Bridged w.st.nft op := by
      cases op with
      | bridgedMint id a ns => intro k hk; rw [hE.1 k hk]; decide
      | _ => trivial
    obtain ⟨h4, h5⟩ := hm.nft_step hb hn (fun o g x e => by subst e; exact hE.1)
      (fun id a ns e => by subst e; exact hE.1)
    rcases hL with rfl | ⟨L, rfl⟩
    · exact ⟨h4.same h1 h2 h3, hsafe.sub (fun id m t hx => h5 id m t (Stands.same (s := { w.st with nft := _ }) h1 h2 hx))⟩
    · obtain ⟨h6, h7⟩ := h4.nft_step (op := .ledger L) (n' := { n with ledger := L }) trivial rfl
        (fun _ _ _ e => by cases e) (fun _ _ _ e => by cases e)
      exact ⟨h6.same h1 h2 h3, hsafe.sub (fun id m t hx => h5 id m t (h7 id m t
        (Stands.same (s := { w.st with nft := { n with ledger := L } }) h1 h2 hx)))⟩

theorem Reach.inv {c : Cfg} {w : World} (h : Reach c NoRemap w) : Inv c w := by
  induction h with
  | init h0 => exact Inv.genesis h0
  | step _ hE hs ih => exact ih.step hE hs

end Verif.Xls20
