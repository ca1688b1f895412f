import Verif.Nft.Props
import Verif.Xls20.Props2

/-!
# C249: what readers of the events of the XLS-20 pallet know
-/

namespace Verif.Xls20

/-- lib.rs:113-134 `Event`, without the addresses of the metadata. -/
inductive Said where
  /-- `Xls20MintRequest` -/
  | request (id : Nat) (ns : List Nat)
  /-- `RelayerSet` -/
  | relayer (r : Acct)
  /-- `Xls20MintFeeSet` -/
  | fee (f : Nat)
  /-- `Xls20MappingSet` -/
  | mapped (id : Nat) (l : List (Nat × Nat))
  /-- `Xls20CollectionMappingsSet` -/
  | collections (l : List (Nat × (Nat × Nat)))
  /-- `Xls20CompatibilityEnabled` -/
  | enabled (id : Nat)
  /-- `Xls20MintFeePaid`: `collection_owner` and `total_fee` -/
  | paid (who : Acct) (x : Nat)
deriving DecidableEq

/-! ## the events of the calls -/

/-- lib.rs:300-324 `pay_xls20_fee`: the event of a payment. -/
def feeEvs (s : St) (who : Acct) (count : Nat) : List Said :=
  if s.fee = 0 then []
  else match s.relayer with
    | none => []
    | some _ => [.paid who (min (min count (U32 - 1) * (s.fee % U32)) (U32 - 1))]

/-- lib.rs:353-363 `request_xls20_mint`, 329-347 `send_xls20_requests`. -/
def requestEvs (s : St) (who : Acct) (id : Nat) (ns : List Nat) : List Said :=
  feeEvs s who ns.length ++ [.request id ns]

/-- /repo/pallet/nft/src/lib.rs:565-577: minting in a compatible collection asks this pallet for the XRPL tokens. -/
def mintEvs (s : St) (who : Acct) (id q : Nat) : List Said :=
  match s.nft.coll id with
  | none => []
  | some k => if k.xls20 = true then requestEvs s who id (List.range' k.next q) else []

/-- lib.rs:185-195 `enable_xls20_compatibility` has an event, and minting (above); other operations of the NFT pallet
have no events of this pallet. -/
def nftEvs (s : St) : Nft.Op → List Said
  | .mint who id q _ _ => mintEvs s who id q
  | .enableXls20 _ id => [.enabled id]
  | _ => []

/-- The events of an operation that succeeds. A deposit, lib.rs:368-425, has none. -/
def evs (s : St) : Op → List Said
  | .deposit _ _ => []
  | .withdraw _ _ _ _ _ => []
  | .accept _ => []
  | .reRequest who id ns => requestEvs s who id ns
  | .fulfil _ id l => [.mapped id l]
  | .setRelayer r => [.relayer r]
  | .setFee f => [.fee f]
  | .setMappings l => [.collections l]
  | .migration _ => []
  | .nft op => nftEvs s op

/-- What the chain tells of an operation: a failing one leaves no event. -/
def tell (c : Cfg) (w : World) (op : Op) : List Said :=
  match step c w op with
  | .ok _ => evs w.st op
  | .error _ => []

def next (c : Cfg) (w : World) (op : Op) : World :=
  match step c w op with
  | .ok w1 => w1
  | .error _ => w

/-- The events of a history. -/
def story (c : Cfg) : World → List Op → List Said
  | _, [] => []
  | w, op :: ops => tell c w op ++ story c (next c w op) ops

/-! ## the reader -/

/-- What a reader writes down. -/
@[ext] structure Page where
  relayer : Option Acct
  fee : Nat
  /-- XLS-20 ids of tokens -/
  ids : Nat → Nat → Option Nat
  /-- collections of issuers and taxons -/
  colls : Nat × Nat → Option Nat
  requests : List (Nat × List Nat)

/-- Reading an event, with no knowledge of the pallet. -/
def Page.read (p : Page) : Said → Page
  | .request id ns => { p with requests := p.requests ++ [(id, ns)] }
  | .relayer r => { p with relayer := some r }
  | .fee f => { p with fee := f }
  | .mapped id l => { p with ids := l.foldl (fun f q => upd f id (upd (f id) q.1 (some q.2))) p.ids }
  | .collections l => { p with colls := l.foldl (fun f q => upd f q.2 (some q.1)) p.colls }
  | .enabled _ => p
  | .paid _ _ => p

def Page.follow (p : Page) (l : List Said) : Page := l.foldl Page.read p

/-- What is stored. -/
def view (s : St) : Page := ⟨s.relayer, s.fee, s.ids, s.colls, s.requests⟩

/-- A history without deposits. -/
def noDeposit : Op → Bool
  | .deposit _ _ => false
  | _ => true

theorem follow_append (p : Page) (a b : List Said) : p.follow (a ++ b) = (p.follow a).follow b := List.foldl_append

theorem feeEvs_page (s : St) (who : Acct) (n : Nat) (p : Page) : p.follow (feeEvs s who n) = p := by
  unfold feeEvs
  split
  · rfl
  · split <;> rfl

theorem request_page {c : Cfg} {s s' : St} {n : Nft.St} {who : Acct} {id : Nat} {ns : List Nat}
    (h : request c s n who id ns = .ok s') : (view s).follow (requestEvs s who id ns) = view s' := by
  simp only [request, bind_ok, pure_ok] at h
  obtain ⟨L, _, h⟩ := h
  subst h
  unfold requestEvs
  rw [follow_append, feeEvs_page]
  rfl

theorem insertAll_fold {k : Nft.Coll} {id : Nat} : ∀ {l : List (Nat × Nat)} {f f' : Nat → Nat → Option Nat},
    insertAll k id f l = .ok f' → l.foldl (fun f q => upd f id (upd (f id) q.1 (some q.2))) f = f'
  | [], _, _, h => by cases h; rfl
  | (n, t) :: l, f, f', h => by
    simp only [insertAll, bind_ok, ensure_ok] at h
    obtain ⟨_, _, _, _, h⟩ := h
    rw [List.foldl_cons]
    exact insertAll_fold h

theorem nft_page {c : Cfg} {s s' : St} {op : Nft.Op} (h : nftStep c s op = .ok s') :
    (view s).follow (nftEvs s op) = view s' := by
  unfold nftStep at h
  split at h
  · simp only [mint, bind_ok, okOr_ok] at h
    obtain ⟨n, _, k, hk, h⟩ := h
    dsimp only [nftEvs, mintEvs]
    rw [hk]
    dsimp only
    split at h
    · rename_i e
      rw [if_pos e]
      exact request_page h
    · rename_i e
      rw [if_neg e]
      simp only [pure_ok] at h
      subst h
      rfl
  · rename_i hm
    cases hn : Nft.step c.nft s.nft op with
    | error e => rw [hn] at h; cases h
    | ok n =>
      rw [hn] at h
      cases h
      cases op with
      | mint a b q d e => exact absurd rfl (hm a b q d e)
      | _ => rfl

theorem step_page {c : Cfg} {w w' : World} {op : Op} (hq : noDeposit op = true) (h : step c w op = .ok w') :
    (view w.st).follow (evs w.st op) = view w'.st := by
  cases op with
  | deposit rcv t => cases hq
  | withdraw who id n dest ok =>
    simp only [step, withdraw, bind_ok, pure_ok] at h
    obtain ⟨r, ⟨_, _, _, _, _, _, _, _, _, _, h1⟩, h⟩ := h
    subst h1
    subst h
    rfl
  | accept i =>
    simp only [step, bind_ok, pure_ok] at h
    obtain ⟨_, _, h⟩ := h
    subst h
    rfl
  | reRequest who id ns =>
    simp only [step, reRequest, bind_ok, pure_ok] at h
    obtain ⟨s1, ⟨_, _, _, _, _, _, _, _, _, _, _, _, _, _, _, _, h1⟩, h⟩ := h
    subst h
    exact request_page h1
  | fulfil who id l =>
    simp only [step, fulfil, bind_ok, pure_ok] at h
    obtain ⟨s1, ⟨_, _, _, _, _, _, _, _, _, _, f, hf, h1⟩, h⟩ := h
    subst h1
    subst h
    show (view w.st).read (.mapped id l) = _
    unfold Page.read view
    dsimp only
    rw [insertAll_fold hf]
  | setRelayer r => cases h; rfl
  | setFee f => cases h; rfl
  | setMappings l => cases h; rfl
  | migration b => cases h; rfl
  | nft op =>
    simp only [step, bind_ok, pure_ok] at h
    obtain ⟨s1, h1, h⟩ := h
    subst h
    exact nft_page h1

/-- **C249, the part that holds.** Over any history without deposits from the XRP ledger, failing calls included, a
reader of the events knows the relayer, the fee, the XLS-20 ids of all tokens, the collections of all issuers and
taxons, and all requests to the relayer. -/
theorem C249_page_partial (c : Cfg) : ∀ (ops : List Op) (w : World), (∀ op ∈ ops, noDeposit op = true) →
    (view w.st).follow (story c w ops) = view (exec c w ops).st
  | [], _, _ => rfl
  | op :: ops, w, hq => by
    have ih := C249_page_partial c ops (next c w op) (fun o ho => hq o (List.mem_cons_of_mem _ ho))
    have e : (view w.st).follow (tell c w op) = view (next c w op).st := by
      unfold tell next
      cases hs : step c w op with
      | error e => rfl
      | ok w1 => exact step_page (hq op List.mem_cons_self) hs
    show (view w.st).follow (tell c w op ++ story c (next c w op) ops) = view (exec c (next c w op) ops).st
    rw [follow_append, e, ih]

/-! ## with deposits -/

/-- What is announced in every history. -/
structure Notes where
  relayer : Option Acct
  fee : Nat
  requests : List (Nat × List Nat)

def Page.notes (p : Page) : Notes := ⟨p.relayer, p.fee, p.requests⟩

theorem read_notes {p q : Page} (h : p.notes = q.notes) (e : Said) : (p.read e).notes = (q.read e).notes := by
  simp only [Page.notes, Notes.mk.injEq] at h
  obtain ⟨h1, h2, h3⟩ := h
  cases e <;> simp [Page.read, Page.notes, h1, h2, h3]

theorem follow_notes : ∀ (l : List Said) {p q : Page}, p.notes = q.notes → (p.follow l).notes = (q.follow l).notes
  | [], _, _, h => h
  | e :: l, _, _, h => follow_notes l (read_notes h e)

theorem mintInto_notes (c : Cfg) (s : St) (rcv : Acct) (t id : Nat) :
    (view (mintInto c s rcv t id).1).notes = (view s).notes := by
  unfold mintInto
  split <;> rfl

theorem deposit_notes (c : Cfg) (s : St) (rcv : Acct) (t : Nat) : (view (deposit c s rcv t).1).notes = (view s).notes := by
  unfold deposit
  split
  · rfl
  split
  · rfl
  split
  · exact mintInto_notes c s rcv t _
  · split
    · rfl
    · split
      · rfl
      · exact (mintInto_notes c _ rcv t _).trans rfl

/-- **C249.** Over any history, deposits included, a reader of the events knows the relayer, the fee and all requests
to the relayer. -/
theorem C249_notes (c : Cfg) : ∀ (ops : List Op) (w : World),
    ((view w.st).follow (story c w ops)).notes = (view (exec c w ops).st).notes
  | [], _ => rfl
  | op :: ops, w => by
    have ih := C249_notes c ops (next c w op)
    have e : ((view w.st).follow (tell c w op)).notes = (view (next c w op).st).notes := by
      unfold tell next
      cases hs : step c w op with
      | error e => rfl
      | ok w1 =>
        cases hq : noDeposit op with
        | true => exact congrArg Page.notes (step_page hq hs)
        | false =>
          cases op with
          | deposit rcv t => cases hs; exact (deposit_notes c w.st rcv t).symm
          | _ => cases hq
    show ((view w.st).follow (tell c w op ++ story c (next c w op) ops)).notes = (view (exec c (next c w op) ops).st).notes
    rw [follow_append, ← ih]
    exact follow_notes _ e

/-- **C249.** When an account mints in a compatible collection, the request that is announced names exactly the
tokens that came into being. -/
theorem C249_requested {c : Cfg} {w w' : World} (h : Reach c NoRemap w) {who : Acct} {id q : Nat}
    {rcv : Option Acct} {ext : Bool} {k : Nft.Coll} (hk : w.st.nft.coll id = some k) (hx : k.xls20 = true)
    (hs : step c w (.nft (.mint who id q rcv ext)) = .ok w') :
    ∃ ns, .request id ns ∈ tell c w (.nft (.mint who id q rcv ext)) ∧
      ∀ n, n ∈ ns ↔ Nft.ownerOf w.st.nft id n = none ∧ Nft.ownerOf w'.st.nft id n ≠ none := by
  have ht : tell c w (.nft (.mint who id q rcv ext)) = evs w.st (.nft (.mint who id q rcv ext)) := by
    unfold tell
    rw [hs]
  refine ⟨List.range' k.next q, ?_, ?_⟩
  · rw [ht]
    dsimp only [evs, nftEvs, mintEvs]
    rw [hk]
    dsimp only
    rw [if_pos hx]
    exact List.mem_append_right _ List.mem_cons_self
  · simp only [step, nftStep, mint, bind_ok, pure_ok, okOr_ok] at hs
    obtain ⟨s1, ⟨n1, hn, k1, hk1, hq⟩, rfl⟩ := hs
    rw [hk] at hk1
    cases hk1
    rw [if_pos hx] at hq
    simp only [request, bind_ok, pure_ok] at hq
    obtain ⟨L, _, rfl⟩ := hq
    obtain ⟨k1, k2, hk1, _, _, _, h1, h2⟩ := Nft.C24_fresh h.inv.maps.nft (rcv := rcv) (ext := ext) hn
    rw [hk] at hk1
    cases hk1
    intro n
    rw [List.mem_range'_1]
    show _ ↔ _ ∧ Nft.ownerOf n1 id n ≠ none
    constructor
    · intro hn
      have := h1 n hn.1 hn.2
      exact ⟨this.2.1, by rw [this.2.2]; exact nofun⟩
    · intro ⟨ha, hb⟩
      by_contra hc
      exact hb ((h2 n (by omega)).trans ha)

/-- **C249.** When an owner asks again for tokens, a payment is announced if and only if the fee is not zero and there
is a relayer; the account it names pays the announced sum to the relayer, and nothing else moves. -/
theorem C249_paid {c : Cfg} {w w' : World} {who : Acct} {id : Nat} {ns : List Nat}
    (hs : step c w (.reRequest who id ns) = .ok w') :
    (∀ p x, .paid p x ∈ tell c w (.reRequest who id ns) → ∃ r, w.st.relayer = some r ∧ x ≤ w.st.nft.ledger.bal c.asset p ∧
      ∀ y, w'.st.nft.ledger.bal c.asset y + (if y = p then x else 0) =
        w.st.nft.ledger.bal c.asset y + (if y = r then x else 0)) ∧
    ((∀ p x, .paid p x ∉ tell c w (.reRequest who id ns)) → w'.st.nft.ledger = w.st.nft.ledger) ∧
    ((∃ p x, .paid p x ∈ tell c w (.reRequest who id ns)) ↔ w.st.fee ≠ 0 ∧ w.st.relayer ≠ none) := by
  have ht : tell c w (.reRequest who id ns) = feeEvs w.st who ns.length ++ [.request id ns] := by
    unfold tell
    rw [hs]
    rfl
  rw [ht]
  simp only [step, reRequest, request, bind_ok, pure_ok] at hs
  obtain ⟨s1, ⟨_, _, _, _, _, _, _, _, _, _, _, _, _, _, _, _, L, hL, h1⟩, rfl⟩ := hs
  subst h1
  have hno : ∀ p x, Said.paid p x ∉ ([.request id ns] : List Said) := by
    intro p x hm
    simp at hm
  unfold payFee at hL
  unfold feeEvs
  by_cases h0 : w.st.fee = 0
  · rw [if_pos h0] at hL ⊢
    cases hL
    exact ⟨fun p x hm => absurd hm (hno p x), fun _ => rfl, fun ⟨p, x, hm⟩ => absurd hm (hno p x), fun h => absurd h0 h.1⟩
  · rw [if_neg h0] at hL ⊢
    cases hr : w.st.relayer with
    | none =>
      rw [hr] at hL
      cases hL
      exact ⟨fun p x hm => absurd hm (hno p x), fun _ => rfl, fun ⟨p, x, hm⟩ => absurd hm (hno p x), fun h => absurd rfl h.2⟩
    | some r =>
      rw [hr] at hL
      dsimp only at hL ⊢
      refine ⟨?_, ?_, ?_⟩
      · intro p x hm
        have e : p = who ∧ x = min (min ns.length (U32 - 1) * (w.st.fee % U32)) (U32 - 1) := by simpa using hm
        obtain ⟨rfl, rfl⟩ := e
        have hl := Ledger.transfer_ok hL
        exact ⟨r, rfl, hl.1, hl.2.2.2⟩
      · intro hm
        exact absurd (List.mem_append_left _ List.mem_cons_self) (hm _ _)
      · exact ⟨fun _ => ⟨h0, nofun⟩, fun _ => ⟨_, _, List.mem_append_left _ List.mem_cons_self⟩⟩

/-- **C249.** A collection that is announced as compatible is so from then on, has no tokens, and belongs to the
account that asked for it. -/
theorem C249_enabled {c : Cfg} {w w' : World} {who : Acct} {id : Nat} (hs : step c w (.nft (.enableXls20 who id)) = .ok w') :
    tell c w (.nft (.enableXls20 who id)) = [.enabled id] ∧
    ∃ k, w.st.nft.coll id = some k ∧ k.owner = who ∧ k.issuance = 0 ∧
      w'.st.nft.coll id = some { k with xls20 := true } := by
  refine ⟨?_, ?_⟩
  · unfold tell
    rw [hs]
    rfl
  · simp only [step, nftStep, bind_ok, pure_ok] at hs
    obtain ⟨s1, h1, rfl⟩ := hs
    cases hn : Nft.step c.nft w.st.nft (.enableXls20 who id) with
    | error e => rw [hn] at h1; cases h1
    | ok n =>
      rw [hn] at h1
      cases h1
      simp only [Nft.step, Nft.enableXls20, bind_ok, ensure_ok, okOr_ok, pure_ok] at hn
      obtain ⟨k, hk, _, ho, _, hi, rfl⟩ := hn
      exact ⟨k, hk, ho, hi, upd_same _ _ _⟩

/-! ## what the events do not tell -/

/-- **C249 is false for deposits.** A deposit creates a collection for an issuer and a taxon and records the id of a
token, and this pallet has no event for either: two histories with the same events end with different records. -/
theorem C249_deposit_refuted : ∃ a b : List Op, story cfg0 g0 a = story cfg0 g0 b ∧
    (exec cfg0 g0 a).st.ids 100 17 = some tokA ∧ (exec cfg0 g0 b).st.ids 100 17 = none ∧
    (exec cfg0 g0 a).st.colls (5, 9) = some 100 ∧ (exec cfg0 g0 b).st.colls (5, 9) = none := by
  refine ⟨[.deposit 3 tokA], [], ?_, ?_, ?_, ?_, ?_⟩ <;> decide +kernel

/-- **C249 is false for payers.** The event of a payment names a collection owner, and the account it names is the
one that mints: account 1 mints in public in a collection of account 4 and is announced as its owner. -/
theorem C249_owner_refuted : ∃ (w : World) (k : Nft.Coll), Reach cfg0 NoRemap w ∧ w.st.nft.coll 100 = some k ∧ k.owner = 4 ∧
    tell cfg0 w (.nft (.mint 1 100 2 none true)) = [.paid 1 14, .request 100 [0, 1]] := by
  refine ⟨exec cfg0 g0 [.setRelayer 7, .setFee 7, .nft (.create 4 0 none none none true), .nft (.setPubMint 4 100 ⟨true, none⟩)],
    _, exec_reach _ (.init g0_genesis) (by decide +kernel) (by decide +kernel), rfl, by decide +kernel, by decide +kernel⟩

/-- The case of `C249_page_partial`, with a rejected call in between. -/
def told : List Op := [.setRelayer 7, .setFee 40000, .nft (.create 1 0 none none none false), .nft (.enableXls20 1 100),
  .nft (.mint 1 100 3 none true), .fulfil 8 100 [(0, tokC)], .fulfil 7 100 [(0, tokC), (2, tokB)],
  .reRequest 1 100 [1], .setMappings [(100, (5, 9))]]

example : story cfg0 g0 told = [.relayer 7, .fee 40000, .enabled 100, .paid 1 120000, .request 100 [0, 1, 2],
    .mapped 100 [(0, tokC), (2, tokB)], .paid 1 40000, .request 100 [1], .collections [(100, (5, 9))]] ∧
    (exec cfg0 g0 told).st.ids 100 2 = some tokB ∧ (exec cfg0 g0 told).st.colls (5, 9) = some 100 := by
  refine ⟨?_, ?_, ?_⟩ <;> decide +kernel

example : ∀ op ∈ told, noDeposit op = true := by decide

-- the case of `C249_requested`
example : Reach cfg0 NoRemap (priced 40000) ∧ ((priced 40000).st.nft.coll 100).map Nft.Coll.xls20 = some true ∧
    (step cfg0 (priced 40000) (.nft (.mint 1 100 4 (some 6) true))).isOk = true ∧
    tell cfg0 (priced 40000) (.nft (.mint 1 100 4 (some 6) true)) = [.paid 1 160000, .request 100 [3, 4, 5, 6]] := by
  refine ⟨exec_reach _ (.init g0_genesis) (by decide +kernel) (by decide +kernel), ?_, ?_, ?_⟩ <;> decide +kernel

-- the case of `C249_paid`
example : (step cfg0 (priced 40000) (.reRequest 1 100 [0, 2])).isOk = true ∧
    tell cfg0 (priced 40000) (.reRequest 1 100 [0, 2]) = [.paid 1 80000, .request 100 [0, 2]] := by
  refine ⟨?_, ?_⟩ <;> decide +kernel

-- the case of `C249_notes`: deposits among the other calls
example : (((view g0.st).follow (story cfg0 g0 [.setFee 3, .deposit 3 tokA, .setRelayer 7])).notes.relayer) = some 7 := by
  decide +kernel

end Verif.Xls20
