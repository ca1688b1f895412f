import Verif.Nft.Props

/-!
# Approvals, mint fees and the rights of collection owners
-/

namespace Verif.Nft

/-! ## C54 -/

/-- C54: through the ERC-721 contract a token is moved from its owner only, by the owner, an operator of the
current owner, or the account approved for the token. -/
theorem C54_transfer_allowed {c : Cfg} {s s' : St} (h : Reach c Bridged s) {caller src dst : Acct} {id n : Nat}
    (hs : step c s (.transferFrom caller id n src dst) = .ok s') :
    ownerOf s id n = some src ∧ ownerOf s' id n = some dst ∧
    (caller = src ∨ s.forAll src id caller = true ∨ s.approvals id n = some caller) := by
  have hr' : Reach c Bridged s' := h.step (op := .transferFrom caller id n src dst) trivial hs
  simp only [step, transferFrom, doTransfer, bind_ok, ensure_ok, okOr_ok, pure_ok] at hs
  obtain ⟨_, hau, _, _, _, hne, _, hf, k, hk, _, hown, o, ho, rfl⟩ := hs
  have hon : Owns k.owned src n := isTokenOwner_iff.mp (hown n List.mem_cons_self).1
  have hci := h.bi.coll id k hk
  have h1 : ownerOf s id n = some src := by rw [ownerOf_some hk]; exact (getOwner_iff hci.uniq).mpr hon
  refine ⟨h1, ?_, ?_⟩
  · have ht := transfer_owns (h.ai.owners id k hk) ho
    have hk' : (clearApprovals (setColl s id { k with owned := o }) id [n]).coll id = some { k with owned := o } :=
      upd_same _ _ _
    rw [ownerOf_some hk']
    exact (getOwner_iff (hr'.bi.coll id _ hk').uniq).mpr ((ht dst n).mpr (Or.inr ⟨rfl, List.mem_cons_self⟩))
  · unfold isApprovedOrOwner at hau
    rw [h1] at hau
    simp only [Option.some.injEq, Bool.or_eq_true, decide_eq_true_eq] at hau
    rcases hau with (h2 | h2) | h2
    · exact Or.inl h2.symm
    · exact Or.inr (Or.inl h2)
    · exact Or.inr (Or.inr h2)

/-- C54: through the ERC-721 contract a token is burnt only by the owner, an operator of the current owner,
or the account approved for the token. -/
theorem C54_burn_allowed {c : Cfg} {s s' : St} {caller : Acct} {id n : Nat}
    (hs : step c s (.burnPrecompile caller id n) = .ok s') :
    ∃ owner, ownerOf s id n = some owner ∧
      (caller = owner ∨ s.forAll owner id caller = true ∨ s.approvals id n = some caller) := by
  simp only [step, burnPrecompile, bind_ok, ensure_ok, okOr_ok] at hs
  obtain ⟨_, hau, o, ho, _⟩ := hs
  refine ⟨o, ho, ?_⟩
  unfold isApprovedOrOwner at hau
  rw [ho] at hau
  simp only [Option.some.injEq, Bool.or_eq_true, decide_eq_true_eq] at hau
  rcases hau with (h2 | h2) | h2
  · exact Or.inl h2.symm
  · exact Or.inr (Or.inl h2)
  · exact Or.inr (Or.inr h2)

/-- C54: an operation that changes the owner of a token leaves it without an approved account. -/
theorem C54_cleared {c : Cfg} {s s' : St} (h : Reach c Bridged s) {op : Op} (hG : Bridged s op)
    (hs : step c s op = .ok s') {id n : Nat} (hne : ownerOf s' id n ≠ ownerOf s id n) :
    s'.approvals id n = none := by
  have hr' := h.step hG hs
  cases ho : ownerOf s id n with
  | none =>
    -- a token without an owner has no approval, and only an owner's token can be given one
    have h0 : s.approvals id n = none := by
      cases hx : s.approvals id n with
      | none => rfl
      | some x => obtain ⟨a, ha⟩ := h.bi.appr id n x hx; rw [ho] at ha; cases ha
    have e := step_eff hs
    cases e with
    | same hc hmi hn ha hl => exact absurd (ownerOf_congr hc id n) hne
    | new => exact h0
    | set => exact h0
    | transfer =>
      simp only [clearApprovals, setColl]
      split
      · rfl
      · exact h0
    | burn =>
      simp only [clearApprovals, setColl]
      split
      · rfl
      · exact h0
    | mint => exact h0
    | bridged => exact h0
  | some a =>
    rw [ho] at hne
    obtain ⟨_, hcase⟩ := C25_only_owner_moves h hG hs ho hne
    have e := step_eff hs
    have cleared : ∀ (t : St) (ns : List Nat), n ∈ ns → (clearApprovals t id ns).approvals id n = none := by
      intro t ns hm
      simp only [clearApprovals]
      rw [if_pos (by simpa using hm)]
    rcases hcase with ⟨ns, new, rfl, hm⟩ | rfl | ⟨caller, _, ⟨new, rfl⟩ | rfl⟩
    · simp only [step, doTransfer, bind_ok, ensure_ok, okOr_ok, pure_ok] at hs
      obtain ⟨_, _, _, _, _, _, k, hk, _, hown, o, _, rfl⟩ := hs
      exact cleared _ _ hm
    · simp only [step, doBurn, bind_ok, ensure_ok, okOr_ok, pure_ok] at hs
      obtain ⟨_, _, _, _, k, hk, _, _, rfl⟩ := hs
      exact cleared _ _ List.mem_cons_self
    · simp only [step, transferFrom, doTransfer, bind_ok, ensure_ok, okOr_ok, pure_ok] at hs
      obtain ⟨_, _, _, _, _, _, _, _, k, hk, _, hown, o, _, rfl⟩ := hs
      exact cleared _ _ List.mem_cons_self
    · simp only [step, burnPrecompile, doBurn, bind_ok, ensure_ok, okOr_ok, pure_ok] at hs
      obtain ⟨_, _, _, _, _, _, _, _, k, hk, _, _, rfl⟩ := hs
      exact cleared _ _ List.mem_cons_self

/-- A history from one state to another, all of whose states satisfy `P`. -/
inductive Path (c : Cfg) (G : St → Op → Prop) (P : St → Prop) : St → St → Prop where
  | refl {s : St} : P s → Path c G P s s
  | step {s t t' : St} {op : Op} : Path c G P s t → G t op → step c t op = .ok t' → P t' → Path c G P s t'

/-- C54: every approval in force was given by the present owner, or an operator of the present owner, and the
token has not changed hands since. -/
theorem C54_approval_current {c : Cfg} {s : St} (h : Reach c Bridged s) {id n : Nat} {x : Acct}
    (hx : s.approvals id n = some x) :
    ∃ s0 s1 caller owner, Reach c Bridged s0 ∧ step c s0 (.approve caller x id n) = .ok s1 ∧
      ownerOf s0 id n = some owner ∧ (caller = owner ∨ s0.forAll owner id caller = true) ∧
      Path c Bridged (fun t => ownerOf t id n = some owner) s1 s := by
  induction h with
  | init hg => rw [hg.approvals] at hx; cases hx
  | @step s s' op hr hG hs ih =>
    have stay : s.approvals id n = some x → ∃ s0 s1 caller owner, Reach c Bridged s0 ∧
        step c s0 (.approve caller x id n) = .ok s1 ∧
        ownerOf s0 id n = some owner ∧ (caller = owner ∨ s0.forAll owner id caller = true) ∧
        Path c Bridged (fun t => ownerOf t id n = some owner) s1 s' := by
      intro h0
      obtain ⟨s0, s1, caller, owner, h1, h2, h3, h4, h5⟩ := ih h0
      refine ⟨s0, s1, caller, owner, h1, h2, h3, h4, h5.step hG hs ?_⟩
      have ho : ownerOf s id n = some owner := by
        cases h5 with
        | refl hp => exact hp
        | step _ _ _ hp => exact hp
      by_contra hne
      have := C54_cleared hr hG hs (id := id) (n := n) (by rw [ho]; exact hne)
      rw [hx] at this
      cases this
    have e := step_eff hs
    cases e with
    | same hc hmi hn ha hl =>
      rcases ha id n with h1 | h1 | ⟨caller, y, a, hop, hy, hoa, hau⟩
      · exact stay (by rw [← h1]; exact hx)
      · rw [h1] at hx; cases hx
      · subst hop
        rw [hy] at hx; cases hx
        refine ⟨s, s', caller, a, hr, hs, hoa, ?_, .refl (by rw [ownerOf_congr hc]; exact hoa)⟩
        rcases hau with h2 | h2
        · exact Or.inl h2.symm
        · exact Or.inr h2
    | new => exact stay hx
    | set => exact stay hx
    | transfer =>
      simp only [clearApprovals, setColl] at hx
      split at hx
      · cases hx
      · exact stay hx
    | burn =>
      simp only [clearApprovals, setColl] at hx
      split at hx
      · cases hx
      · exact stay hx
    | mint => exact stay hx
    | bridged => exact stay hx

/-- Non-vacuity: the approval of token 3 for account 5 is in force; once account 2 has transferred it to 8 and
8 back to 2, it is gone. -/
example : demo.approvals 100 3 = some 5 ∧
    (exec cfg0 demo [.transfer 2 100 [3] 8, .transfer 8 100 [3] 2]).approvals 100 3 = none ∧
    ownerOf (exec cfg0 demo [.transfer 2 100 [3] 8, .transfer 8 100 [3] 2]) 100 3 = some 2 ∧
    (step cfg0 demo (.transferFrom 5 100 3 2 8)).isOk = true ∧
    (step cfg0 (exec cfg0 demo [.transfer 2 100 [3] 8, .transfer 8 100 [3] 2]) (.transferFrom 5 100 3 2 8)).isOk = false := by
  decide +kernel

/-! ## C73 -/

/-- C73: the owner of a collection mints for free; anybody else mints only while public minting is on, and
pays the price times the number of tokens, all of it to the collection owner. -/
theorem C73_mint_fee {c : Cfg} {s s' : St} {who : Acct} {id q : Nat} {rcv : Option Acct} {ext : Bool}
    (hs : step c s (.mint who id q rcv ext) = .ok s') :
    ∃ k, s.coll id = some k ∧
      (k.owner = who → s'.ledger = s.ledger) ∧
      (k.owner ≠ who → (s.pubMint id).enabled = true ∧
        ((s.pubMint id).price = none → s'.ledger = s.ledger) ∧
        (∀ a p, (s.pubMint id).price = some (a, p) → p * q < U128 →
          p * q ≤ s.ledger.bal a who ∧ s'.ledger.iss = s.ledger.iss ∧
          (∀ b, b ≠ a → s'.ledger.bal b = s.ledger.bal b) ∧
          (∀ x, s'.ledger.bal a x + (if x = who then p * q else 0) =
            s.ledger.bal a x + (if x = k.owner then p * q else 0)))) := by
  have e := step_eff hs
  simp only [step, mint, preMint, doMint, bind_ok, ensure_ok, okOr_ok, pure_ok] at hs
  obtain ⟨_, hl, _, hf, k, hk, ns, ⟨_, hq, _, ha, _, _, _, hr, _, hu, _, hc, _, hm, rfl⟩, L, hL, s1,
    ⟨_, _, _, _, o, ho, rfl⟩, _, _, rfl⟩ := hs
  refine ⟨k, hk, ?_, ?_⟩
  · intro hw
    unfold maybeCharge at hL
    rw [if_neg (fun hx => hx.2 hw)] at hL
    cases hL; rfl
  · intro hw
    have hen : (s.pubMint id).enabled = true := ha.resolve_left hw
    unfold maybeCharge at hL
    rw [if_pos ⟨hen, hw⟩] at hL
    unfold chargeMintFee at hL
    refine ⟨hen, ?_, ?_⟩
    · intro hp
      rw [hp] at hL
      cases hL; rfl
    · intro a p hp hlt
      rw [hp] at hL
      simp only at hL
      have hmin : min (p * q) (U128 - 1) = p * q := by omega
      rw [hmin] at hL
      obtain ⟨h1, h2, h3, h4⟩ := Ledger.transfer_ok hL
      exact ⟨h1, h2, h3, h4⟩

/-- Non-vacuity: in the demonstration account 7 paid 20 for two tokens; account 8, with nothing, cannot mint. -/
example : (step cfg0 demo (.mint 7 100 1 none true)).isOk = true ∧
    (step cfg0 demo (.mint 8 100 1 none true)).isOk = false ∧ (step cfg0 demo (.mint 1 100 1 none true)).isOk = true := by
  decide +kernel

/-! ## C74 -/

/-- C74: while transfers are switched off no token changes hands, while burning is switched off none
disappears, and while minting is switched off none is minted on this chain. -/
theorem C74_switched_off {c : Cfg} {s s' : St} (h : Reach c Bridged s) {op : Op} (hG : Bridged s op)
    (hs : step c s op = .ok s') {id : Nat} :
    ((s.flags id).transferable = false → ∀ n a b, ownerOf s id n = some a → ownerOf s' id n = some b → a = b) ∧
    ((s.flags id).burnable = false → ∀ n a, ownerOf s id n = some a → ∃ b, ownerOf s' id n = some b) ∧
    ((s.flags id).mintable = false → ∀ w q t e, op ≠ .mint w id q t e) := by
  have hr' := h.step hG hs
  refine ⟨?_, ?_, ?_⟩
  · intro hf n a b hoa hob
    by_contra hne
    have h1 : ownerOf s' id n ≠ some a := by
      rw [hob]; intro hx; cases hx; exact hne rfl
    obtain ⟨_, hcase⟩ := C25_only_owner_moves h hG hs hoa h1
    have gone : ∀ {who : Acct}, doBurn s who id n = .ok s' → False := by
      intro who hb
      simp only [doBurn, bind_ok, ensure_ok, okOr_ok, pure_ok] at hb
      obtain ⟨_, _, _, _, k, hk, _, hown, rfl⟩ := hb
      have hk' : (clearApprovals (setColl s id { k with
          issuance := k.issuance - 1
          owned := burnFrom k.owned who n }) id [n]).coll id = some { k with
          issuance := k.issuance - 1
          owned := burnFrom k.owned who n } := upd_same _ _ _
      rw [ownerOf_some hk'] at hob
      have h2 := (burnFrom_owns b n).mp (getOwner_owns hob)
      exact h2.2 ⟨(h.bi.coll id k hk).uniq b who n h2.1 (isTokenOwner_iff.mp hown), rfl⟩
    rcases hcase with ⟨ns, new, rfl, hm⟩ | rfl | ⟨caller, _, ⟨new, rfl⟩ | rfl⟩
    · simp only [step, doTransfer, bind_ok, ensure_ok, okOr_ok, pure_ok] at hs
      obtain ⟨_, _, _, _, _, hx, _⟩ := hs
      rw [hf] at hx; cases hx
    · exact gone hs
    · simp only [step, transferFrom, doTransfer, bind_ok, ensure_ok, okOr_ok, pure_ok] at hs
      obtain ⟨_, _, _, _, _, _, _, hx, _⟩ := hs
      rw [hf] at hx; cases hx
    · simp only [step, burnPrecompile, bind_ok, ensure_ok, okOr_ok] at hs
      obtain ⟨_, _, o, _, hx⟩ := hs
      exact gone hx
  · intro hf n a hoa
    by_contra hne
    have h1 : ownerOf s' id n ≠ some a := fun hx => hne ⟨a, hx⟩
    obtain ⟨_, hcase⟩ := C25_only_owner_moves h hG hs hoa h1
    have move : ∀ {ns : List Nat} {cur new : Acct}, n ∈ ns → doTransfer c s id ns cur new = .ok s' → False := by
      intro ns cur new hm hb
      simp only [doTransfer, bind_ok, ensure_ok, okOr_ok, pure_ok] at hb
      obtain ⟨_, _, _, _, _, _, k, hk, _, hown, o, ho, rfl⟩ := hb
      have ht := transfer_owns (h.ai.owners id k hk) ho
      exact hne (ownerOf_exists.mpr ⟨{ k with owned := o }, new, upd_same _ _ _, (ht new n).mpr (Or.inr ⟨rfl, hm⟩)⟩)
    rcases hcase with ⟨ns, new, rfl, hm⟩ | rfl | ⟨caller, _, ⟨new, rfl⟩ | rfl⟩
    · exact move hm hs
    · simp only [step, doBurn, bind_ok, ensure_ok, okOr_ok, pure_ok] at hs
      obtain ⟨_, _, _, hx, _⟩ := hs
      rw [hf] at hx; cases hx
    · simp only [step, transferFrom, bind_ok, ensure_ok] at hs
      obtain ⟨_, _, hx⟩ := hs
      exact move List.mem_cons_self hx
    · simp only [step, burnPrecompile, doBurn, bind_ok, ensure_ok, okOr_ok, pure_ok] at hs
      obtain ⟨_, _, _, _, _, _, _, hx, _⟩ := hs
      rw [hf] at hx; cases hx
  · rintro hf w q t e rfl
    simp only [step, mint, bind_ok, ensure_ok] at hs
    obtain ⟨_, _, _, hx, _⟩ := hs
    rw [hf] at hx; cases hx

/-- Non-vacuity: with all three switched off nothing moves, burns or is minted; with them on it does. -/
example : (step cfg0 demo (.setFlags 1 100 ⟨false, false, false⟩)).isOk = true ∧
    ([Op.transfer 1 100 [4] 3, .burn 1 100 4, .mint 1 100 1 none true].map (fun op =>
      ((step cfg0 demo op).isOk, (step cfg0 (exec cfg0 demo [.setFlags 1 100 ⟨false, false, false⟩]) op).isOk))) =
      [(true, false), (true, false), (true, false)] := by decide +kernel

/-! ## C75 -/

/-- C75: owner, maximum issuance, royalties, XLS-20 compatibility, public mint settings and switches of an
existing collection change only by a call of its owner, or, for a collection still held by the pallet, by
root claiming it for someone. -/
theorem C75_settings_by_owner {c : Cfg} {G : St → Op → Prop} {s s' : St} (h : Reach c G s) {op : Op}
    (hs : step c s op = .ok s') {id : Nat} {k : Coll} (hk : s.coll id = some k) :
    ∃ k', s'.coll id = some k' ∧
      (((k'.owner, k'.maxIss, k'.royalties, k'.xls20, k'.origin) = (k.owner, k.maxIss, k.royalties, k.xls20, k.origin) ∧
        s'.pubMint id = s.pubMint id ∧ s'.flags id = s.flags id) ∨
       (op = .setOwner k.owner id k'.owner ∨ (∃ m, op = .setMaxIssuance k.owner id m) ∨
        (∃ r, op = .setRoyalties k.owner id r) ∨ op = .enableXls20 k.owner id ∨
        (∃ p, op = .setPubMint k.owner id p) ∨ (∃ f, op = .setFlags k.owner id f)) ∨
       (op = .claimUnowned id k'.owner ∧ k.owner = c.palletAcct)) := by
  have keepAll : s'.coll id = some k → s'.pubMint = s.pubMint → s'.flags = s.flags →
      ∃ k', s'.coll id = some k' ∧
      (((k'.owner, k'.maxIss, k'.royalties, k'.xls20, k'.origin) = (k.owner, k.maxIss, k.royalties, k.xls20, k.origin) ∧
        s'.pubMint id = s.pubMint id ∧ s'.flags id = s.flags id) ∨
       (op = .setOwner k.owner id k'.owner ∨ (∃ m, op = .setMaxIssuance k.owner id m) ∨
        (∃ r, op = .setRoyalties k.owner id r) ∨ op = .enableXls20 k.owner id ∨
        (∃ p, op = .setPubMint k.owner id p) ∨ (∃ f, op = .setFlags k.owner id f)) ∨
       (op = .claimUnowned id k'.owner ∧ k.owner = c.palletAcct)) :=
    fun h1 h2 h3 => ⟨k, h1, Or.inl ⟨rfl, by rw [h2], by rw [h3]⟩⟩
  have created : ∀ {o : Acct} {i : Nat} {m : Option Nat} {t : Option Acct} {r : Option (List (Acct × Nat))} {g : Chain}
      {x : Bool}, doCreate c s o i m t r g x = .ok s' → s'.coll id = some k ∧ s'.pubMint = s.pubMint ∧ s'.flags = s.flags := by
    intro o i m t r g x hx
    simp only [doCreate, nextUuid, bind_ok, ensure_ok, okOr_ok, pure_ok] at hx
    obtain ⟨j, hj, _, _, _, _, o', _, rfl⟩ := hx
    have hne : id ≠ j := by rintro rfl; rw [h.ai.fresh hj] at hk; cases hk
    exact ⟨by rw [← hk]; exact upd_ne _ _ hne, rfl, rfl⟩
  -- a record is rewritten keeping its settings
  have rewritten : ∀ {j : Nat} {k0 k1 : Coll}, s.coll j = some k0 → s'.coll = upd s.coll j (some k1) →
      (k1.owner, k1.maxIss, k1.royalties, k1.xls20, k1.origin) = (k0.owner, k0.maxIss, k0.royalties, k0.xls20, k0.origin) →
      s'.pubMint = s.pubMint → s'.flags = s.flags →
      ∃ k', s'.coll id = some k' ∧
      (k'.owner, k'.maxIss, k'.royalties, k'.xls20, k'.origin) = (k.owner, k.maxIss, k.royalties, k.xls20, k.origin) ∧
        s'.pubMint id = s.pubMint id ∧ s'.flags id = s.flags id := by
    intro j k0 k1 h0 h1 h2 h3 h4
    by_cases hj : id = j
    · subst hj
      rw [h0] at hk; cases hk
      exact ⟨k1, by rw [h1, upd_same], h2, by rw [h3], by rw [h4]⟩
    · exact ⟨k, by rw [h1, upd_ne _ _ hj]; exact hk, rfl, by rw [h3], by rw [h4]⟩
  have wrap : (∃ k', s'.coll id = some k' ∧
      (k'.owner, k'.maxIss, k'.royalties, k'.xls20, k'.origin) = (k.owner, k.maxIss, k.royalties, k.xls20, k.origin) ∧
        s'.pubMint id = s.pubMint id ∧ s'.flags id = s.flags id) →
      ∃ k', s'.coll id = some k' ∧
      (((k'.owner, k'.maxIss, k'.royalties, k'.xls20, k'.origin) = (k.owner, k.maxIss, k.royalties, k.xls20, k.origin) ∧
        s'.pubMint id = s.pubMint id ∧ s'.flags id = s.flags id) ∨
       (op = .setOwner k.owner id k'.owner ∨ (∃ m, op = .setMaxIssuance k.owner id m) ∨
        (∃ r, op = .setRoyalties k.owner id r) ∨ op = .enableXls20 k.owner id ∨
        (∃ p, op = .setPubMint k.owner id p) ∨ (∃ f, op = .setFlags k.owner id f)) ∨
       (op = .claimUnowned id k'.owner ∧ k.owner = c.palletAcct)) :=
    fun ⟨k', h1, h2⟩ => ⟨k', h1, Or.inl h2⟩
  have moved : ∀ {j : Nat} {ns : List Nat} {a b : Acct}, doTransfer c s j ns a b = .ok s' →
      ∃ k0 k1, s.coll j = some k0 ∧ s'.coll = upd s.coll j (some k1) ∧
      (k1.owner, k1.maxIss, k1.royalties, k1.xls20, k1.origin) = (k0.owner, k0.maxIss, k0.royalties, k0.xls20, k0.origin) ∧
      s'.pubMint = s.pubMint ∧ s'.flags = s.flags := by
    intro j ns a b hx
    simp only [doTransfer, bind_ok, ensure_ok, okOr_ok, pure_ok] at hx
    obtain ⟨_, _, _, _, _, _, k0, hk0, _, _, o, _, rfl⟩ := hx
    exact ⟨k0, _, hk0, rfl, rfl, rfl, rfl⟩
  have burnt : ∀ {j n : Nat} {a : Acct}, doBurn s a j n = .ok s' →
      ∃ k0 k1, s.coll j = some k0 ∧ s'.coll = upd s.coll j (some k1) ∧
      (k1.owner, k1.maxIss, k1.royalties, k1.xls20, k1.origin) = (k0.owner, k0.maxIss, k0.royalties, k0.xls20, k0.origin) ∧
      s'.pubMint = s.pubMint ∧ s'.flags = s.flags := by
    intro j n a hx
    simp only [doBurn, bind_ok, ensure_ok, okOr_ok, pure_ok] at hx
    obtain ⟨_, _, _, _, k0, hk0, _, _, rfl⟩ := hx
    exact ⟨k0, _, hk0, rfl, rfl, rfl, rfl⟩
  cases op with
  | create o i m t r x => obtain ⟨h1, h2, h3⟩ := created hs; exact keepAll h1 h2 h3
  | createBridged o g x =>
    simp only [step, bind_ok, ensure_ok] at hs
    obtain ⟨_, _, hs⟩ := hs
    obtain ⟨h1, h2, h3⟩ := created hs
    exact keepAll h1 h2 h3
  | mint w j q t e =>
    simp only [step, mint, preMint, doMint, bind_ok, ensure_ok, okOr_ok, pure_ok] at hs
    obtain ⟨_, _, _, _, k0, hk0, ns, _, L, _, s1, ⟨_, _, _, _, o, _, rfl⟩, _, _, rfl⟩ := hs
    exact wrap (rewritten hk0 rfl rfl rfl rfl)
  | bridgedMint j w ns =>
    simp only [step, bridgedMint] at hs
    split at hs
    · cases hs; exact keepAll hk rfl rfl
    · split at hs
      · cases hs; exact keepAll hk rfl rfl
      · rename_i k0 hk0
        split at hs
        · cases hs; exact keepAll hk rfl rfl
        · simp only [doMint, bind_ok, ensure_ok, pure_ok] at hs
          obtain ⟨_, _, _, _, o, _, rfl⟩ := hs
          exact wrap (rewritten hk0 rfl rfl rfl rfl)
  | transfer w j ns n =>
    obtain ⟨k0, k1, h1, h2, h3, h4, h5⟩ := moved hs
    exact wrap (rewritten h1 h2 h3 h4 h5)
  | transferFrom a j n f t =>
    simp only [step, transferFrom, bind_ok, ensure_ok] at hs
    obtain ⟨_, _, hs⟩ := hs
    obtain ⟨k0, k1, h1, h2, h3, h4, h5⟩ := moved hs
    exact wrap (rewritten h1 h2 h3 h4 h5)
  | burn w j n =>
    obtain ⟨k0, k1, h1, h2, h3, h4, h5⟩ := burnt hs
    exact wrap (rewritten h1 h2 h3 h4 h5)
  | burnPrecompile a j n =>
    simp only [step, burnPrecompile, bind_ok, ensure_ok, okOr_ok] at hs
    obtain ⟨_, _, o, _, hs⟩ := hs
    obtain ⟨k0, k1, h1, h2, h3, h4, h5⟩ := burnt hs
    exact wrap (rewritten h1 h2 h3 h4 h5)
  | setOwner w j n =>
    simp only [step, setOwner, bind_ok, ensure_ok, okOr_ok, pure_ok] at hs
    obtain ⟨k0, hk0, _, rfl, rfl⟩ := hs
    by_cases hj : id = j
    · subst hj
      rw [hk0] at hk; cases hk
      exact ⟨_, upd_same _ _ _, Or.inr (Or.inl (Or.inl rfl))⟩
    · exact keepAll (by rw [← hk]; exact upd_ne _ _ hj) rfl rfl
  | claimUnowned j n =>
    simp only [step, claimUnowned, bind_ok, ensure_ok, okOr_ok, pure_ok] at hs
    obtain ⟨k0, hk0, _, hp, rfl⟩ := hs
    by_cases hj : id = j
    · subst hj
      rw [hk0] at hk; cases hk
      exact ⟨_, upd_same _ _ _, Or.inr (Or.inr ⟨rfl, hp⟩)⟩
    · exact keepAll (by rw [← hk]; exact upd_ne _ _ hj) rfl rfl
  | setMaxIssuance w j m =>
    simp only [step, setMaxIssuance, bind_ok, ensure_ok, okOr_ok, pure_ok] at hs
    obtain ⟨k0, hk0, _, _, _, rfl, _, _, _, _, rfl⟩ := hs
    by_cases hj : id = j
    · subst hj
      rw [hk0] at hk; cases hk
      exact ⟨_, upd_same _ _ _, Or.inr (Or.inl (Or.inr (Or.inl ⟨m, rfl⟩)))⟩
    · exact keepAll (by rw [← hk]; exact upd_ne _ _ hj) rfl rfl
  | setPubMint w j p =>
    simp only [step, setPubMint, bind_ok, ensure_ok, okOr_ok, pure_ok] at hs
    obtain ⟨k0, hk0, _, rfl, rfl⟩ := hs
    by_cases hj : id = j
    · subst hj
      rw [hk0] at hk; cases hk
      exact ⟨_, hk0, Or.inr (Or.inl (Or.inr (Or.inr (Or.inr (Or.inr (Or.inl ⟨p, rfl⟩))))))⟩
    · exact ⟨k, hk, Or.inl ⟨rfl, upd_ne _ _ hj, rfl⟩⟩
  | setRoyalties w j r =>
    simp only [step, setRoyalties, bind_ok, ensure_ok, okOr_ok, pure_ok] at hs
    obtain ⟨k0, hk0, _, rfl, _, _, rfl⟩ := hs
    by_cases hj : id = j
    · subst hj
      rw [hk0] at hk; cases hk
      exact ⟨_, upd_same _ _ _, Or.inr (Or.inl (Or.inr (Or.inr (Or.inl ⟨r, rfl⟩))))⟩
    · exact keepAll (by rw [← hk]; exact upd_ne _ _ hj) rfl rfl
  | setFlags w j f =>
    simp only [step, setFlags, bind_ok, ensure_ok, okOr_ok, pure_ok] at hs
    obtain ⟨k0, hk0, _, rfl, rfl⟩ := hs
    by_cases hj : id = j
    · subst hj
      rw [hk0] at hk; cases hk
      exact ⟨_, hk0, Or.inr (Or.inl (Or.inr (Or.inr (Or.inr (Or.inr (Or.inr ⟨f, rfl⟩))))))⟩
    · exact ⟨k, hk, Or.inl ⟨rfl, rfl, upd_ne _ _ hj⟩⟩
  | enableXls20 w j =>
    simp only [step, enableXls20, bind_ok, ensure_ok, okOr_ok, pure_ok] at hs
    obtain ⟨k0, hk0, _, rfl, _, _, rfl⟩ := hs
    by_cases hj : id = j
    · subst hj
      rw [hk0] at hk; cases hk
      exact ⟨_, upd_same _ _ _, Or.inr (Or.inl (Or.inr (Or.inr (Or.inr (Or.inl rfl)))))⟩
    · exact keepAll (by rw [← hk]; exact upd_ne _ _ hj) rfl rfl
  | takeUuid =>
    simp only [step, takeUuid, nextUuid, bind_ok, ensure_ok, okOr_ok, pure_ok] at hs
    obtain ⟨_, _, _, _, rfl⟩ := hs
    exact keepAll hk rfl rfl
  | setLock w j n l =>
    simp only [step, setLock, bind_ok, ensure_ok, pure_ok] at hs
    obtain ⟨_, _, _, _, rfl⟩ := hs
    exact keepAll hk rfl rfl
  | removeLock j n => cases hs; exact keepAll hk rfl rfl
  | approve a b j n =>
    simp only [step, approve, bind_ok, ensure_ok, okOr_ok, pure_ok] at hs
    obtain ⟨_, _, _, _, _, _, rfl⟩ := hs
    exact keepAll hk rfl rfl
  | removeApproval w j n =>
    simp only [step, removeApproval, bind_ok, ensure_ok, pure_ok] at hs
    obtain ⟨_, _, _, _, rfl⟩ := hs
    exact keepAll hk rfl rfl
  | approveAll a b j ok =>
    simp only [step, approveAll, bind_ok, ensure_ok, pure_ok] at hs
    obtain ⟨_, _, rfl⟩ := hs
    exact keepAll hk rfl rfl
  | ledger L => cases hs; exact keepAll hk rfl rfl

/-- Non-vacuity: account 1 can give collection 100 away, account 2 cannot; the bridged collection can be
claimed by root. -/
example : (step cfg0 demo (.setOwner 1 100 2)).isOk = true ∧ (step cfg0 demo (.setOwner 2 100 2)).isOk = false ∧
    (step cfg0 demo (.claimUnowned 1124 6)).isOk = true ∧ (step cfg0 demo (.claimUnowned 100 6)).isOk = false := by
  decide +kernel

end Verif.Nft
