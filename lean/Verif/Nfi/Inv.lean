import Verif.Nfi.Model

/-! # Invariants of the NFI pallet -/

namespace Verif.Nfi

open Nft (Owns Eff)

/-- The NFT exists. -/
def Lives (s : Nft.St) (id n : Nat) : Prop := ∃ k a, s.coll id = some k ∧ Owns k.owned a n

/-- The operation burns this NFT. -/
def Burns (op : Nft.Op) (id n : Nat) : Prop := (∃ w, op = .burn w id n) ∨ ∃ w, op = .burnPrecompile w id n

theorem lives_iff {s : Nft.St} {id n : Nat} : (Nft.ownerOf s id n).isSome = true ↔ Lives s id n := by
  rw [Option.isSome_iff_exists]
  exact Nft.ownerOf_exists

/-! ## What the other two pallets do -/

/-- What an operation of the NFT pallet does to collections and tokens. -/
structure NFrame (c : Nft.Cfg) (op : Nft.Op) (s s' : Nft.St) : Prop where
  nextId : s.nextId ≤ s'.nextId
  keep : ∀ id, s.coll id ≠ none → s'.coll id ≠ none
  made : ∀ id, s'.coll id ≠ none → s.coll id ≠ none ∨ Nft.nextAssetUuid s.nextId c.chainId = some id
  live : ∀ id n, Lives s id n → Lives s' id n ∨ Burns op id n

theorem NFrame.set {c : Nft.Cfg} {op : Nft.Op} {s s' : Nft.St} {id : Nat} {k k' : Nft.Coll} (hk : s.coll id = some k)
    (hc : s'.coll = upd s.coll id (some k')) (hn : s'.nextId = s.nextId)
    (ho : ∀ a n, Owns k.owned a n → (∃ b, Owns k'.owned b n) ∨ Burns op id n) : NFrame c op s s' := by
  refine ⟨le_of_eq hn.symm, fun j hj => ?_, fun j hj => ?_, fun j n => ?_⟩
  · rw [hc]
    by_cases hji : j = id
    · subst hji; rw [upd_same]; exact Option.some_ne_none _
    · rw [upd_ne _ _ hji]; exact hj
  · by_cases hji : j = id
    · subst hji; left; rw [hk]; exact Option.some_ne_none _
    · rw [hc, upd_ne _ _ hji] at hj; exact Or.inl hj
  · rintro ⟨k0, a, h0, ha⟩
    by_cases hji : j = id
    · subst hji
      rw [hk] at h0
      cases h0
      rcases ho a n ha with ⟨b, hb⟩ | hb
      · exact Or.inl ⟨k', b, by rw [hc, upd_same], hb⟩
      · exact Or.inr hb
    · exact Or.inl ⟨k0, a, by rw [hc, upd_ne _ _ hji]; exact h0, ha⟩

theorem nframe {c : Nft.Cfg} {s s' : Nft.St} {op : Nft.Op} (h : Nft.AI c s) (e : Eff c s op s') : NFrame c op s s' := by
  cases e with
  | same hc hm hn ha hl =>
    refine ⟨?_, fun id hid => by rw [hc]; exact hid, fun id hid => by rw [hc] at hid; exact Or.inl hid, ?_⟩
    · rcases hn with hn | ⟨hn, _⟩ <;> omega
    · rintro id n ⟨k, a, hk, ha'⟩
      exact Or.inl ⟨k, a, by rw [hc]; exact hk, ha'⟩
  | @new id k' i hid hnx hi hm ho =>
    have hf := h.fresh hid
    refine ⟨Nat.le_succ _, fun j hj => ?_, fun j hj => ?_, ?_⟩
    · show upd s.coll id (some k') j ≠ none
      have hji : j ≠ id := by rintro rfl; exact hj hf
      rw [upd_ne _ _ hji]; exact hj
    · change upd s.coll id (some k') j ≠ none at hj
      by_cases hji : j = id
      · subst hji; exact Or.inr hid
      · rw [upd_ne _ _ hji] at hj; exact Or.inl hj
    · rintro j n ⟨k0, a, h0, ha⟩
      have hji : j ≠ id := by rintro rfl; rw [hf] at h0; cases h0
      exact Or.inl ⟨k0, a, by show upd s.coll id (some k') j = _; rw [upd_ne _ _ hji]; exact h0, ha⟩
  | set hk ho hg hn hi hm => exact .set hk rfl rfl (fun a n ha => Or.inl ⟨a, by rw [ho]; exact ha⟩)
  | @transfer id k ns cur new o auth hne hf hk hown hadd =>
    refine .set hk rfl rfl (fun a n ha => Or.inl ?_)
    by_cases hn : n ∈ ns
    · exact ⟨new, (Nft.transfer_owns (h.owners _ _ hk) hadd new n).mpr (Or.inr ⟨rfl, hn⟩)⟩
    · exact ⟨a, (Nft.transfer_owns (h.owners _ _ hk) hadd a n).mpr (Or.inl ⟨ha, fun hc => hn hc.2⟩)⟩
  | @burn id k n who auth hlk hf hk hown =>
    refine .set hk rfl rfl (fun a m ha => ?_)
    by_cases hm : m = n
    · subst hm
      right
      rcases auth with h1 | ⟨w, h1, _⟩
      · exact Or.inl ⟨_, h1⟩
      · exact Or.inr ⟨_, h1⟩
    · exact Or.inl ⟨a, (Nft.burnFrom_owns a m).mpr ⟨ha, fun hc => hm hc.2⟩⟩
  | mint hop hf hk hq hlim hauth horig hu hcap hmax hfee hadd =>
    exact .set hk rfl rfl (fun a n ha => Or.inl ⟨a, (Nft.addUser_owns hadd a n).mpr (Or.inl ha)⟩)
  | bridged hop hk hadd =>
    exact .set hk rfl rfl (fun a n ha => Or.inl ⟨a, (Nft.addUser_owns hadd a n).mpr (Or.inl ha)⟩)

/-- What an operation of the SFT pallet does to collections and tokens. -/
structure SFrame (c : Sft.Cfg) (s s' : Sft.St) : Prop where
  nextId : s.nextId ≤ s'.nextId
  keep : ∀ id, s.coll id ≠ none → s'.coll id ≠ none
  made : ∀ id, s'.coll id ≠ none → s.coll id ≠ none ∨ Nft.nextAssetUuid s.nextId c.chainId = some id
  live : ∀ id n, (s.tok id n).isSome = true → (s'.tok id n).isSome = true

theorem SFrame.same {c : Sft.Cfg} {s s' : Sft.St} (hc : s'.coll = s.coll)
    (ht : ∀ id n, (s.tok id n).isSome = true → (s'.tok id n).isSome = true) (hn : s'.nextId = s.nextId) :
    SFrame c s s' :=
  ⟨le_of_eq hn.symm, fun _ h => by rw [hc]; exact h, fun _ h => by rw [hc] at h; exact Or.inl h, ht⟩

theorem SFrame.moves {c : Sft.Cfg} {s s' : Sft.St} {id : Nat} {m p : Nat → Acct → Nat} {i j : Nat → Nat}
    (h : Sft.Moves s s' id m p i j) : SFrame c s s' := by
  refine .same h.coll (fun id' n hx => ?_) h.nextId
  by_cases hid : id' = id
  · subst hid; rw [h.exist]; exact hx
  · rw [h.other _ hid]; exact hx

theorem setTok_live (s : Sft.St) (id n : Nat) (t : Sft.Tok) (j m : Nat) (h : (s.tok j m).isSome = true) :
    ((Sft.setTok s id n t).tok j m).isSome = true := by
  by_cases hj : j = id
  · subst hj
    by_cases hm : m = n
    · subst hm; rw [Sft.tok_set_same]; rfl
    · rw [Sft.tok_set_ne _ _ _ _ hm]; exact h
  · rw [Sft.tok_set_other _ _ _ _ hj]; exact h

theorem SFrame.coll {c : Sft.Cfg} {s s' : Sft.St} {id : Nat} {k k' : Sft.Coll} (hk : s.coll id = some k)
    (hc : s'.coll = upd s.coll id (some k')) (ht : ∀ id n, (s.tok id n).isSome = true → (s'.tok id n).isSome = true)
    (hn : s'.nextId = s.nextId) : SFrame c s s' := by
  refine ⟨le_of_eq hn.symm, fun j hj => ?_, fun j hj => ?_, ht⟩
  · rw [hc]
    by_cases hji : j = id
    · subst hji; rw [upd_same]; exact Option.some_ne_none _
    · rw [upd_ne _ _ hji]; exact hj
  · by_cases hji : j = id
    · subst hji; left; rw [hk]; exact Option.some_ne_none _
    · rw [hc, upd_ne _ _ hji] at hj; exact Or.inl hj

theorem sframe {c : Sft.Cfg} {s s' : Sft.St} {op : Sft.Op} (h : Sft.SI c s) (hs : Sft.step c s op = .ok s') :
    SFrame c s s' := by
  cases op with
  | createColl o r =>
    simp only [Sft.step, Sft.createColl, bind_ok, ensure_ok, okOr_ok, pure_ok] at hs
    obtain ⟨id, hid, _, _, _, _, rfl⟩ := hs
    have hf := h.fresh hid
    refine ⟨Nat.le_succ _, fun j hj => ?_, fun j hj => ?_, fun _ _ hx => hx⟩
    · dsimp only
      have hji : j ≠ id := by rintro rfl; exact hj hf
      rw [upd_ne _ _ hji]; exact hj
    · dsimp only at hj
      by_cases hji : j = id
      · subst hji; exact Or.inr hid
      · rw [upd_ne _ _ hji] at hj; exact Or.inl hj
  | takeUuid =>
    simp only [Sft.step, bind_ok, okOr_ok, pure_ok] at hs
    obtain ⟨id, hid, rfl⟩ := hs
    exact ⟨Nat.le_succ _, fun _ hx => hx, fun _ hx => Or.inl hx, fun _ _ hx => hx⟩
  | createToken w id i m o e =>
    simp only [Sft.step, Sft.createToken, bind_ok, ensure_ok, okOr_ok, pure_ok] at hs
    obtain ⟨_, _, k, hk, _, _, _, _, _, _, _, _, rfl⟩ := hs
    exact .coll hk rfl (fun j n hx => setTok_live s _ _ _ j n hx) rfl
  | mint w id xs o => exact .moves (Sft.mint_ok h hs).2.2.2
  | transfer w id xs n => exact .moves (Sft.transfer_ok h hs).2.2.2.2.2
  | burn w id xs => exact .moves (Sft.burn_ok h hs).2.2.2.2
  | setOwner w id n =>
    simp only [Sft.step, Sft.setOwner, bind_ok, ensure_ok, okOr_ok, pure_ok] at hs
    obtain ⟨k, hk, _, _, rfl⟩ := hs
    exact .coll hk rfl (fun _ _ hx => hx) rfl
  | setMax w id n m =>
    simp only [Sft.step, Sft.setMax, bind_ok, ensure_ok, okOr_ok, pure_ok] at hs
    obtain ⟨_, _, k, hk, _, _, t, ht, _, _, _, hle, rfl⟩ := hs
    exact .same rfl (fun j n hx => setTok_live s _ _ _ j n hx) rfl
  | setRoyalties w id r =>
    simp only [Sft.step, Sft.setRoyalties, bind_ok, ensure_ok, okOr_ok, pure_ok] at hs
    obtain ⟨k, hk, _, _, _, _, rfl⟩ := hs
    exact .coll hk rfl (fun _ _ hx => hx) rfl
  | setPubMint w id n p =>
    simp only [Sft.step, Sft.setPubMint, bind_ok, ensure_ok, okOr_ok, pure_ok] at hs
    obtain ⟨k, hk, _, _, rfl⟩ := hs
    exact .same rfl (fun _ _ hx => hx) rfl
  | setFlags w id f =>
    simp only [Sft.step, Sft.setFlags, bind_ok, ensure_ok, okOr_ok, pure_ok] at hs
    obtain ⟨k, hk, _, _, rfl⟩ := hs
    exact .same rfl (fun _ _ hx => hx) rfl
  | reserve id n a w =>
    simp only [Sft.step, Sft.reserve, bind_ok, okOr_ok, pure_ok] at hs
    obtain ⟨t, ht, o, ho, rfl⟩ := hs
    exact .same rfl (fun j n hx => setTok_live s _ _ _ j n hx) rfl
  | unreserve id n a w =>
    simp only [Sft.step, Sft.unreserve, bind_ok, okOr_ok, pure_ok] at hs
    obtain ⟨t, ht, o, ho, rfl⟩ := hs
    exact .same rfl (fun j n hx => setTok_live s _ _ _ j n hx) rfl
  | approveAll a b id ok =>
    simp only [Sft.step, Sft.approveAll, bind_ok, ensure_ok, pure_ok] at hs
    obtain ⟨_, _, rfl⟩ := hs
    exact .same rfl (fun _ _ hx => hx) rfl
  | safeTransfer a id xs f t =>
    simp only [Sft.step, Sft.safeTransfer, bind_ok, ensure_ok] at hs
    obtain ⟨_, _, hs⟩ := hs
    exact .moves (Sft.transfer_ok h hs).2.2.2.2.2
  | safeBurn a id xs f =>
    simp only [Sft.step, Sft.safeBurn, bind_ok, ensure_ok] at hs
    obtain ⟨_, _, hs⟩ := hs
    exact .moves (Sft.burn_ok h hs).2.2.2.2
  | ledger L => cases hs; exact .same rfl (fun _ _ hx => hx) rfl

/-! ## Requests -/

/-- A request event for a token of this chain. -/
def req (s : St) (who : Acct) (id n : Nat) : Request := ⟨who, trn s id n, (s.data (trn s id n)).isSome⟩

theorem send_all (who : Acct) (id : Nat) : ∀ (ns : List Nat) (s : St),
    ns.foldl (fun s n => send s who (trn s id n)) s =
      { s with requests := (ns.map (req s who id)).reverse ++ s.requests }
  | [], s => rfl
  | n :: ns, s => by
    rw [List.foldl_cons, send_all who id ns]
    rw [List.map_cons, List.reverse_cons, List.append_assoc]
    rfl

theorem request_ok {c : Cfg} {s s' : St} {who : Acct} {id : Nat} {ns : List Nat} (h : request c s who id ns = .ok s') :
    (s.enabled s.chain (.u32 id) = false ∧ s' = s) ∨
    (s.enabled s.chain (.u32 id) = true ∧ ∃ L, pay c s who ns.length = .ok L ∧
      s' = { s.setLedger L with requests := (ns.map (req s who id)).reverse ++ s.requests }) := by
  unfold request at h
  split at h
  · cases h; exact Or.inl ⟨by assumption, rfl⟩
  · rename_i he
    simp only [bind_ok, pure_ok] at h
    obtain ⟨L, hL, rfl⟩ := h
    refine Or.inr ⟨by cases hx : s.enabled s.chain (.u32 id) <;> simp_all, L, hL, ?_⟩
    rw [send_all]
    rfl

/-- The request changes only balances and the event log. -/
theorem request_frame {c : Cfg} {s s' : St} {who : Acct} {id : Nat} {ns : List Nat} (h : request c s who id ns = .ok s') :
    ∃ L R, s' = { s.setLedger L with requests := R } := by
  rcases request_ok h with ⟨_, rfl⟩ | ⟨_, L, _, rfl⟩
  · exact ⟨s'.nft.ledger, s'.requests, rfl⟩
  · exact ⟨L, _, rfl⟩

/-! ## The invariant -/

/-- What the data of a token of this chain requires. -/
structure Good (s : St) (t : Tid) : Prop where
  on : s.enabled s.chain t.coll = true
  real : ∃ id n, t.coll = .u32 id ∧ t.serial = .u32 n ∧ (Lives s.nft id n ∨ (s.sft.tok id n).isSome = true)

/-- The part that holds whatever root does to the chain id. -/
structure Two (c : Cfg) (s : St) : Prop where
  nft : Nft.AI c.nft s.nft
  sft : Sft.SI c.sft s.sftView
  apart : ∀ id, s.nft.coll id = none ∨ s.sft.coll id = none

/-- The part that needs a fixed chain id. -/
structure Inv (s : St) : Prop where
  data : ∀ t d, s.data t = some d → t.chain = s.chain → Good s t
  coll : ∀ g, s.enabled s.chain g = true → ∃ id, g = .u32 id ∧ (s.nft.coll id ≠ none ∨ s.sft.coll id ≠ none)

theorem AI.counter {c : Nft.Cfg} {s : Nft.St} (h : Nft.AI c s) {m : Nat} (L : Ledger) (h1 : s.nextId ≤ m)
    (h2 : m ≤ 4194303) : Nft.AI c { s with nextId := m, ledger := L } :=
  ⟨h2, fun id k hk => by
    obtain ⟨i, hi, hj⟩ := h.ids id k hk
    exact ⟨i, lt_of_lt_of_le hi h1, hj⟩, h.owners, h.locks⟩

theorem SI.counter {c : Sft.Cfg} {s : Sft.St} (h : Sft.SI c s) {m : Nat} (L : Ledger) (h1 : s.nextId ≤ m)
    (h2 : m ≤ 4194303) : Sft.SI c { s with nextId := m, ledger := L } :=
  ⟨h2, fun id k hk => by
    obtain ⟨i, hi, hj⟩ := h.ids id k hk
    exact ⟨i, lt_of_lt_of_le hi h1, hj⟩, h.tok, h.below⟩

theorem Two.genesis {c : Cfg} {s : St} (h : Genesis s) : Two c s :=
  ⟨.genesis h.nft, .genesis ⟨h.sft.coll, h.sft.tok, h.nft.nextId⟩, fun id => Or.inl (h.nft.coll id)⟩

theorem Inv.genesis {s : St} (h : Genesis s) : Inv s :=
  ⟨fun t d hd => (by rw [h.data] at hd; cases hd), fun g hg => (by rw [h.enabled] at hg; cases hg)⟩

/-- Only balances, requests and settings change. -/
theorem Two.same {c : Cfg} {s s' : St} (h : Two c s) (L : Ledger) (h1 : s'.nft = { s.nft with ledger := L })
    (h2 : s'.sft = s.sft) : Two c s' := by
  obtain ⟨a, b, d⟩ := h
  refine ⟨?_, ?_, ?_⟩
  · rw [h1]
    exact AI.counter a L (le_refl _) a.small
  · unfold St.sftView at b ⊢
    rw [h1, h2]
    exact SI.counter b L (le_refl _) b.small
  · rw [h1, h2]; exact d

/-- The NFT pallet acts. -/
theorem Two.nftOp {c : Cfg} {s : St} (h : Two c s) {m : Nft.St} {op : Nft.Op} (e : Eff c.nft s.nft op m) :
    Two c { s with nft := m } := by
  have f := nframe h.nft e
  have a := h.nft.step e
  refine ⟨a, SI.counter h.sft m.ledger f.nextId a.small, fun id => ?_⟩
  by_cases hk : m.coll id = none
  · exact Or.inl hk
  · refine Or.inr ?_
    rcases f.made id hk with h1 | h1
    · exact (h.apart id).resolve_left h1
    · exact h.sft.fresh h1

/-- The SFT pallet acts. -/
theorem Two.sftOp {c : Cfg} {s : St} (h : Two c s) {t : Sft.St} {op : Sft.Op} (e : Sft.step c.sft s.sftView op = .ok t) :
    Two c (s.putSft t) := by
  have f := sframe h.sft e
  have a := h.sft.step e
  refine ⟨AI.counter h.nft t.ledger f.nextId a.small, a, fun id => ?_⟩
  by_cases hk : t.coll id = none
  · exact Or.inr hk
  · refine Or.inl ?_
    rcases f.made id hk with h1 | h1
    · exact (h.apart id).resolve_right h1
    · exact h.nft.fresh h1

/-- The NFT part of a step, and what the hooks add. -/
theorem nftStep_ok {c : Cfg} {s s' : St} {op : Nft.Op} (h : nftStep c s op = .ok s') :
    ∃ m, Eff c.nft s.nft op m ∧
      ((∃ id n, Burns op id n ∧ s' = onBurn { s with nft := m } id n) ∨
       ((∀ id n, ¬ Burns op id n) ∧ ∃ L R, s' = { ({ s with nft := m } : St).setLedger L with requests := R })) := by
  have rest : (∀ id n, ¬ Burns op id n) → (do
      let m ← Nft.step c.nft s.nft op
      pure ({ s with nft := m } : St)) = .ok s' → ∃ m, Eff c.nft s.nft op m ∧
      ((∃ id n, Burns op id n ∧ s' = onBurn { s with nft := m } id n) ∨
       ((∀ id n, ¬ Burns op id n) ∧ ∃ L R, s' = { ({ s with nft := m } : St).setLedger L with requests := R })) := by
    intro hb hx
    simp only [bind_ok, pure_ok] at hx
    obtain ⟨m, hm, rfl⟩ := hx
    exact ⟨m, Nft.step_eff hm, Or.inr ⟨hb, m.ledger, s.requests, rfl⟩⟩
  cases op with
  | mint w id q r e =>
    simp only [nftStep, nftMint, bind_ok, okOr_ok] at h
    obtain ⟨k, hk, m, hm, hr⟩ := h
    obtain ⟨L, R, rfl⟩ := request_frame hr
    refine ⟨m, Nft.step_eff (op := .mint w id q r e) hm, Or.inr ⟨?_, L, R, rfl⟩⟩
    rintro id n (⟨w, hw⟩ | ⟨w, hw⟩) <;> cases hw
  | burn w id n =>
    simp only [nftStep, bind_ok, pure_ok] at h
    obtain ⟨m, hm, rfl⟩ := h
    exact ⟨m, Nft.step_eff (op := .burn w id n) hm, Or.inl ⟨id, n, Or.inl ⟨w, rfl⟩, rfl⟩⟩
  | burnPrecompile w id n =>
    simp only [nftStep, bind_ok, pure_ok] at h
    obtain ⟨m, hm, rfl⟩ := h
    exact ⟨m, Nft.step_eff (op := .burnPrecompile w id n) hm, Or.inl ⟨id, n, Or.inr ⟨w, rfl⟩, rfl⟩⟩
  | _ =>
    refine rest ?_ h
    rintro id n (⟨w, hw⟩ | ⟨w, hw⟩) <;> cases hw

/-- The SFT part of a step, and what the hook adds. -/
theorem sftStep_ok {c : Cfg} {s s' : St} {op : Sft.Op} (h : sftStep c s op = .ok s') :
    ∃ L R t, Sft.step c.sft ({ s.setLedger L with requests := R } : St).sftView op = .ok t ∧
      s' = ({ s.setLedger L with requests := R } : St).putSft t := by
  have rest : (do
      let t ← Sft.step c.sft s.sftView op
      pure (s.putSft t)) = .ok s' → ∃ L R t, Sft.step c.sft ({ s.setLedger L with requests := R } : St).sftView op = .ok t ∧
      s' = ({ s.setLedger L with requests := R } : St).putSft t := by
    intro hx
    simp only [bind_ok, pure_ok] at hx
    obtain ⟨t, ht, rfl⟩ := hx
    exact ⟨s.nft.ledger, s.requests, t, ht, rfl⟩
  cases op with
  | createToken w id i m o e =>
    simp only [sftStep, sftCreateToken, bind_ok, ensure_ok, okOr_ok, pure_ok] at h
    obtain ⟨k, hk, _, _, s1, hr, t, ht, rfl⟩ := h
    obtain ⟨L, R, rfl⟩ := request_frame hr
    exact ⟨L, R, t, ht, rfl⟩
  | _ => exact rest h

theorem checkRequest_ok {s : St} {who : Acct} {t : Tid} {u : Unit} (h : checkRequest s who t = .ok u)
    (hc : t.chain = s.chain) : s.enabled s.chain t.coll = true ∧
      ∃ id n, t.coll = .u32 id ∧ t.serial = .u32 n ∧ checkPermissions s id n who = true := by
  unfold checkRequest format at h
  rw [if_pos hc] at h
  cases h1 : t.coll <;> cases h2 : t.serial <;> rw [h1, h2] at h <;>
    simp only [bind_ok, ensure_ok, reduceCtorEq, false_and, exists_false, and_false, Except.ok.injEq] at h
  obtain ⟨_, h3, a, rfl, h4⟩ := h
  exact ⟨h3, _, _, rfl, rfl, h4⟩

theorem checkData_ok {s : St} {t : Tid} {u : Unit} (h : checkData s t = .ok u)
    (hc : t.chain = s.chain) : s.enabled s.chain t.coll = true ∧
      ∃ id n, t.coll = .u32 id ∧ t.serial = .u32 n ∧ tokenExists s id n = true := by
  unfold checkData format at h
  rw [if_pos hc] at h
  cases h1 : t.coll <;> cases h2 : t.serial <;> rw [h1, h2] at h <;>
    simp only [bind_ok, ensure_ok, reduceCtorEq, false_and, exists_false, and_false, Except.ok.injEq] at h
  obtain ⟨_, h3, a, rfl, h4⟩ := h
  exact ⟨h3, _, _, rfl, rfl, h4⟩

theorem owner_coll {s : St} {id : Nat} {who : Acct} (h : isCollectionOwner s id who = true) :
    s.nft.coll id ≠ none ∨ s.sft.coll id ≠ none := by
  unfold isCollectionOwner at h
  split at h
  · left; simp_all
  · split at h
    · right; simp_all
    · cases h

theorem Two.step {c : Cfg} {s s' : St} {op : Op} (h : Two c s) (hs : step c s op = .ok s') : Two c s' := by
  cases op with
  | setRelayer r => cases hs; exact h.same s.nft.ledger rfl rfl
  | setFeeTo r => cases hs; exact h.same s.nft.ledger rfl rfl
  | setFee f =>
    simp only [Nfi.step, bind_ok, ensure_ok, pure_ok] at hs
    obtain ⟨_, _, rfl⟩ := hs
    exact h.same s.nft.ledger rfl rfl
  | enable who id =>
    simp only [Nfi.step, enable, bind_ok, ensure_ok, pure_ok] at hs
    obtain ⟨_, _, rfl⟩ := hs
    exact h.same s.nft.ledger rfl rfl
  | manual who t =>
    simp only [Nfi.step, manual, bind_ok, pure_ok] at hs
    obtain ⟨_, _, L, _, rfl⟩ := hs
    exact h.same L rfl rfl
  | submit who t d =>
    simp only [Nfi.step, submit, bind_ok, ensure_ok, pure_ok] at hs
    obtain ⟨_, _, _, _, rfl⟩ := hs
    exact h.same s.nft.ledger rfl rfl
  | setChain n => cases hs; exact h.same s.nft.ledger rfl rfl
  | nft op =>
    obtain ⟨m, e, ⟨id, n, _, rfl⟩ | ⟨_, L, R, rfl⟩⟩ := nftStep_ok hs
    · exact (h.nftOp e).same m.ledger rfl rfl
    · exact (h.nftOp e).same L rfl rfl
  | sft op =>
    obtain ⟨L, R, t, e, rfl⟩ := sftStep_ok hs
    exact (h.same (s' := { s.setLedger L with requests := R }) L rfl rfl).sftOp e

/-- Collections and tokens stay, except the tokens burnt, whose data goes. -/
theorem Inv.mono {s s' : St} (h : Inv s) (hc : s'.chain = s.chain) (he : s'.enabled = s.enabled)
    (hk : ∀ id, s.nft.coll id ≠ none ∨ s.sft.coll id ≠ none → s'.nft.coll id ≠ none ∨ s'.sft.coll id ≠ none)
    (hd : ∀ t d, s'.data t = some d → s.data t = some d)
    (hl : ∀ id n, s'.data (trn s id n) ≠ none → Lives s.nft id n ∨ (s.sft.tok id n).isSome = true →
      Lives s'.nft id n ∨ (s'.sft.tok id n).isSome = true) : Inv s' := by
  refine ⟨fun t d ht hch => ?_, fun g hg => ?_⟩
  · rw [hc] at hch
    obtain ⟨a, id, n, h1, h2, h3⟩ := h.data t d (hd t d ht) hch
    refine ⟨by rw [hc, he]; exact a, id, n, h1, h2, hl id n ?_ h3⟩
    have : trn s id n = t := by
      unfold trn
      rw [← hch, ← h1, ← h2]
    rw [this, ht]
    exact Option.some_ne_none _
  · rw [hc, he] at hg
    obtain ⟨id, h1, h2⟩ := h.coll g hg
    exact ⟨id, h1, hk id h2⟩

theorem Inv.step {c : Cfg} {s s' : St} {op : Op} (h : Inv s) (h2 : Two c s) (hf : Fixed op)
    (hs : step c s op = .ok s') : Inv s' := by
  have idem : ∀ {s' : St}, s'.chain = s.chain → s'.enabled = s.enabled → s'.nft.coll = s.nft.coll →
      s'.sft = s.sft → s'.data = s.data → Inv s' := by
    intro s' e1 e2 e3 e4 e5
    refine h.mono e1 e2 (fun id hx => by rw [e3, e4]; exact hx) (fun t d ht => by rw [e5] at ht; exact ht) ?_
    intro id n _ hx
    unfold Lives
    rw [e3, e4]
    exact hx
  cases op with
  | setRelayer r => cases hs; exact idem rfl rfl rfl rfl rfl
  | setFeeTo r => cases hs; exact idem rfl rfl rfl rfl rfl
  | setFee f =>
    simp only [Nfi.step, bind_ok, ensure_ok, pure_ok] at hs
    obtain ⟨_, _, rfl⟩ := hs
    exact idem rfl rfl rfl rfl rfl
  | enable who id =>
    simp only [Nfi.step, enable, bind_ok, ensure_ok, pure_ok] at hs
    obtain ⟨_, ho, rfl⟩ := hs
    have hup : ∀ g, s.enabled s.chain g = true →
        upd s.enabled s.chain (upd (s.enabled s.chain) (.u32 id) true) s.chain g = true := by
      intro g hg
      rw [upd_same, upd_apply]
      split
      · rfl
      · exact hg
    refine ⟨fun t d ht hch => ?_, fun g hg => ?_⟩
    · obtain ⟨a, b⟩ := h.data t d ht hch
      exact ⟨hup _ a, b⟩
    · change upd s.enabled s.chain (upd (s.enabled s.chain) (.u32 id) true) s.chain g = true at hg
      rw [upd_same, upd_apply] at hg
      split at hg
      · rename_i hgi
        exact ⟨id, hgi, owner_coll ho⟩
      · exact h.coll g hg
  | manual who t =>
    simp only [Nfi.step, manual, bind_ok, pure_ok] at hs
    obtain ⟨_, _, L, _, rfl⟩ := hs
    exact idem rfl rfl rfl rfl rfl
  | submit who t d =>
    simp only [Nfi.step, submit, bind_ok, ensure_ok, pure_ok] at hs
    obtain ⟨_, _, _, hd, rfl⟩ := hs
    refine ⟨fun t' d' ht hch => ?_, h.coll⟩
    dsimp only at ht hch
    by_cases htt : t' = t
    · subst htt
      obtain ⟨h3, id, n, h4, h5, h6⟩ := checkData_ok hd hch
      refine ⟨h3, id, n, h4, h5, ?_⟩
      unfold tokenExists at h6
      rcases Bool.or_eq_true_iff.mp h6 with h6 | h6
      · exact Or.inl (lives_iff.mp h6)
      · exact Or.inr h6
    · rw [upd_ne _ _ htt] at ht
      obtain ⟨a, b⟩ := h.data t' d' ht hch
      exact ⟨a, b⟩
  | setChain n => exact absurd rfl (hf n)
  | nft op =>
    obtain ⟨m, e, ⟨id, n, hb, rfl⟩ | ⟨hb, L, R, rfl⟩⟩ := nftStep_ok hs
    · have f := nframe h2.nft e
      refine h.mono rfl rfl (fun j hx => hx.imp_left (f.keep j)) (fun t d ht => ?_) (fun j k hx hl => ?_)
      · change upd s.data (trn s id n) none t = some d at ht
        by_cases htt : t = trn s id n
        · subst htt; rw [upd_same] at ht; cases ht
        · rw [upd_ne _ _ htt] at ht; exact ht
      · refine hl.imp_left (fun hl => ?_)
        rcases f.live j k hl with h3 | h3
        · exact h3
        · exfalso
          apply hx
          have : j = id ∧ k = n := by
            rcases hb with ⟨w, hw⟩ | ⟨w, hw⟩ <;> rcases h3 with ⟨w', hw'⟩ | ⟨w', hw'⟩ <;> rw [hw] at hw' <;> cases hw' <;>
              exact ⟨rfl, rfl⟩
          rw [this.1, this.2]
          exact upd_same _ _ _
    · have f := nframe h2.nft e
      refine h.mono rfl rfl (fun j hx => hx.imp_left (f.keep j)) (fun t d ht => ht) (fun j k hx hl => ?_)
      exact hl.imp_left (fun hl => (f.live j k hl).resolve_right (hb j k))
  | sft op =>
    obtain ⟨L, R, t, e, rfl⟩ := sftStep_ok hs
    have f := sframe (h2.same (s' := { s.setLedger L with requests := R }) L rfl rfl).sft e
    exact h.mono rfl rfl (fun j hx => hx.imp_right (f.keep j)) (fun t d ht => ht)
      (fun j k hx hl => hl.imp_right (f.live j k))

theorem Reach.two {c : Cfg} {G : Op → Prop} {s : St} (h : Reach c G s) : Two c s := by
  induction h with
  | init hg => exact .genesis hg
  | step _ _ hs ih => exact ih.step hs

theorem Reach.inv {c : Cfg} {s : St} (h : Reach c Fixed s) : Inv s := by
  induction h with
  | init hg => exact .genesis hg
  | step hr hf hs ih => exact ih.step hr.two hf hs

end Verif.Nfi
