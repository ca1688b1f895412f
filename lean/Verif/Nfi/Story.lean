import Verif.Nfi.Props

/-!
# Events of the NFI pallet

The events that `/repo/pallet/nfi/src/lib.rs` deposits, and `ChainIdSet` of `/repo/pallet/evm-chain-id/src/lib.rs`, as functions
of state and operation. There is one kind of data, so the sub type is left out.
-/

namespace Verif.Nfi

/-- /repo/pallet/nfi/src/lib.rs 116-152, /repo/pallet/evm-chain-id/src/lib.rs 79-81. -/
inductive Said where
  /-- `DataRequestNew` or `DataRequestExisting` -/
  | request (r : Request)
  /-- `DataSet` -/
  | set (t : Tid) (d : Nat)
  /-- `DataRemoved` -/
  | removed (t : Tid)
  /-- `FeeDetailsSet` -/
  | fee (f : Option Fee)
  /-- `FeeToSet` -/
  | feeTo (a : Option Acct)
  /-- `MintFeePaid` -/
  | feePaid (who : Acct) (a : AssetId) (total : Nat)
  /-- `NfiEnabled`: without the chain id -/
  | enabled (g : GColl)
  /-- `RelayerSet` -/
  | relayer (a : Acct)
  /-- `ChainIdSet` -/
  | chain (n : Nat)
deriving DecidableEq

/-- lib.rs 318-360 `pay_mint_fee`. -/
def feeEvs (s : St) (who : Acct) (count : Nat) : List Said :=
  match s.fee with
  | some f => [.feePaid who f.asset (totalFee f count)]
  | none => []

/-- lib.rs 363-375 `send_data_request`. -/
def sendEv (s : St) (who : Acct) (t : Tid) : Said := .request ⟨who, t, (s.data t).isSome⟩

/-- lib.rs 424-446 `request`. -/
def requestEvs (s : St) (who : Acct) (id : Nat) (ns : List Nat) : List Said :=
  if s.enabled s.chain (.u32 id) = false then []
  else feeEvs s who ns.length ++ ns.map (fun n => sendEv s who (trn s id n))

/-- /repo/pallet/nft/src/lib.rs 573 and impls.rs 486: the events of operations of the NFT pallet. -/
def nftEvs (s : St) : Nft.Op → List Said
  | .mint who id q _ _ =>
    match s.nft.coll id with
    | some k => requestEvs s who id (List.range' k.next q)
    | none => []
  | .burn _ id n => [.removed (trn s id n)]
  | .burnPrecompile _ id n => [.removed (trn s id n)]
  | _ => []

/-- /repo/pallet/sft/src/impls.rs 123: the events of operations of the SFT pallet. -/
def sftEvs (s : St) : Sft.Op → List Said
  | .createToken who id _ _ _ _ =>
    match s.sft.coll id with
    | some k => requestEvs s who id [k.next]
    | none => []
  | _ => []

/-- The events of a successful operation: lib.rs 181, 195, 216, 235, 274-275, 310, evm-chain-id lib.rs 92. -/
def evs (s : St) : Op → List Said
  | .setRelayer r => [.relayer r]
  | .setFeeTo a => [.feeTo a]
  | .setFee f => [.fee f]
  | .enable _ id => [.enabled (.u32 id)]
  | .manual who t => feeEvs s who 1 ++ [sendEv s who t]
  | .submit _ t d => [.set t d]
  | .setChain n => [.chain n]
  | .nft op => nftEvs s op
  | .sft op => sftEvs s op

/-- The events of an operation; one that fails leaves none. -/
def tell (c : Cfg) (s : St) (op : Op) : List Said :=
  match step c s op with
  | .ok _ => evs s op
  | .error _ => []

/-- The state after an operation. -/
def next (c : Cfg) (s : St) (op : Op) : St :=
  match step c s op with
  | .ok s1 => s1
  | .error _ => s

/-- The events of a history. -/
def story (c : Cfg) (s : St) : List Op → List Said
  | [] => []
  | op :: ops => tell c s op ++ story c (next c s op) ops

/-! ## Specification: what a reader takes from the events -/

/-- What a reader writes down. -/
@[ext] structure Page where
  chain : Nat
  relayer : Option Acct
  fee : Option Fee
  feeTo : Option Acct
  data : Tid → Option Nat
  enabled : Nat → GColl → Bool
  /-- oldest first -/
  requests : List Request

def Page.read (p : Page) : Said → Page
  | .request r => { p with requests := p.requests ++ [r] }
  | .set t d => { p with data := upd p.data t (some d) }
  | .removed t => { p with data := upd p.data t none }
  | .fee f => { p with fee := f }
  | .feeTo a => { p with feeTo := a }
  | .feePaid _ _ _ => p
  | .enabled g => { p with enabled := upd p.enabled p.chain (upd (p.enabled p.chain) g true) }
  | .relayer a => { p with relayer := some a }
  | .chain n => { p with chain := n }

/-- Reading all events. -/
def Page.follow (p : Page) (es : List Said) : Page := es.foldl Page.read p

/-- What is stored, and what was asked for. -/
def view (s : St) : Page where
  chain := s.chain
  relayer := s.relayer
  fee := s.fee
  feeTo := s.feeTo
  data := s.data
  enabled := s.enabled
  requests := s.requests.reverse

/-- A request. -/
def Said.asks : Said → Bool
  | .request _ => true
  | _ => false

/-! ## Proofs -/

theorem follow_append (p : Page) (es fs : List Said) : p.follow (es ++ fs) = (p.follow es).follow fs := List.foldl_append

theorem follow_fee (p : Page) (s : St) (who : Acct) (n : Nat) : p.follow (feeEvs s who n) = p := by
  unfold feeEvs
  split <;> rfl

theorem follow_requests (s : St) (who : Acct) (id : Nat) : ∀ (ns : List Nat) (p : Page),
    p.follow (ns.map (fun n => sendEv s who (trn s id n))) = { p with requests := p.requests ++ ns.map (req s who id) }
  | [], p => by simp [Page.follow]
  | n :: ns, p => by
    have := follow_requests s who id ns (p.read (sendEv s who (trn s id n)))
    refine Eq.trans this ?_
    simp only [Page.read, sendEv, req, List.map_cons, List.append_assoc, List.singleton_append]

theorem request_page {c : Cfg} {s s' : St} {who : Acct} {id : Nat} {ns : List Nat} (h : request c s who id ns = .ok s') :
    (view s).follow (requestEvs s who id ns) = view s' := by
  unfold requestEvs
  rcases request_ok h with ⟨h1, rfl⟩ | ⟨h1, L, _, rfl⟩
  · rw [if_pos h1]; rfl
  · rw [if_neg (by rw [h1]; exact Bool.noConfusion), follow_append, follow_fee, follow_requests]
    simp only [view, List.reverse_append, List.reverse_reverse]
    rfl

theorem step_page {c : Cfg} {s s' : St} {op : Op} (hs : step c s op = .ok s') : (view s).follow (evs s op) = view s' := by
  cases op with
  | setRelayer r => cases hs; rfl
  | setFeeTo a => cases hs; rfl
  | setFee f =>
    simp only [step, bind_ok, ensure_ok, pure_ok] at hs
    obtain ⟨_, _, rfl⟩ := hs; rfl
  | enable who id =>
    simp only [step, enable, bind_ok, ensure_ok, pure_ok] at hs
    obtain ⟨_, _, rfl⟩ := hs; rfl
  | manual who t =>
    simp only [step, manual, bind_ok, pure_ok] at hs
    obtain ⟨_, _, L, _, rfl⟩ := hs
    simp only [evs, follow_append, follow_fee]
    simp only [Page.follow, List.foldl_cons, List.foldl_nil, Page.read, sendEv, view, send, List.reverse_cons]
    rfl
  | submit who t d =>
    simp only [step, submit, bind_ok, ensure_ok, pure_ok] at hs
    obtain ⟨_, _, _, _, rfl⟩ := hs; rfl
  | setChain n => cases hs; rfl
  | nft op =>
    have h : nftStep c s op = .ok s' := hs
    cases op with
    | mint who id q r e =>
      simp only [nftStep, nftMint, bind_ok, okOr_ok] at h
      obtain ⟨k, hk, m, _, hr⟩ := h
      simp only [evs, nftEvs, hk]
      exact request_page (s := { s with nft := m }) hr
    | burn who id n =>
      simp only [nftStep, bind_ok, pure_ok] at h
      obtain ⟨m, _, rfl⟩ := h; rfl
    | burnPrecompile who id n =>
      simp only [nftStep, bind_ok, pure_ok] at h
      obtain ⟨m, _, rfl⟩ := h; rfl
    | _ =>
      simp only [nftStep, bind_ok, pure_ok] at h
      obtain ⟨m, _, rfl⟩ := h; rfl
  | sft op =>
    have h : sftStep c s op = .ok s' := hs
    cases op with
    | createToken who id i m o e =>
      simp only [sftStep, sftCreateToken, bind_ok, okOr_ok, ensure_ok, pure_ok] at h
      obtain ⟨k, hk, _, _, s1, hr, t, _, rfl⟩ := h
      simp only [evs, sftEvs, hk]
      exact (request_page hr).trans rfl
    | _ =>
      simp only [sftStep, bind_ok, pure_ok] at h
      obtain ⟨m, _, rfl⟩ := h; rfl

/-! ## C248 -/

/-- C248: a reader who starts from what is stored and follows the events knows, after any history, the chain id, the relayer,
the fee and who shares in it, the data of every token, the collections with NFI, and all requests in order. -/
theorem C248_page (c : Cfg) : ∀ (ops : List Op) (s : St), (view s).follow (story c s ops) = view (exec c s ops)
  | [], _ => rfl
  | op :: ops, s => by
    unfold story exec tell next
    cases hs : step c s op with
    | error e => exact C248_page c ops s
    | ok s' =>
      simp only
      rw [follow_append, step_page hs]
      exact C248_page c ops s'

/-- C248: the story of the example. -/
example : (story cfg0 g0 ops0).drop 5 = [.feePaid 1 2 602, .request ⟨1, ⟨7668, .u32 100, .u32 0⟩, false⟩,
    .request ⟨1, ⟨7668, .u32 100, .u32 1⟩, false⟩, .feePaid 1 2 301, .request ⟨1, ⟨7668, .u32 1124, .u32 0⟩, false⟩,
    .set ⟨7668, .u32 100, .u32 1⟩ 9, .set ⟨7668, .u32 1124, .u32 0⟩ 8, .set ⟨1, .h160 5, .u64 3⟩ 7] ∧
    ((view g0).follow (story cfg0 g0 ops0)).data ⟨7668, .u32 100, .u32 1⟩ = some 9 := by decide +kernel

/-- The events of a call are settings, or those of requests by one account for some tokens. -/
theorem evs_shape (s : St) (op : Op) :
    (∀ e ∈ evs s op, (∀ r, e ≠ .request r) ∧ ∀ w a x, e ≠ .feePaid w a x) ∨
    ∃ (who : Acct) (ts : List Tid), evs s op = feeEvs s who ts.length ++ ts.map (sendEv s who) := by
  have hr : ∀ who id ns, (∀ e ∈ requestEvs s who id ns, (∀ r, e ≠ .request r) ∧ ∀ w a x, e ≠ .feePaid w a x) ∨
      ∃ (w : Acct) (ts : List Tid), requestEvs s who id ns = feeEvs s w ts.length ++ ts.map (sendEv s w) := by
    intro who id ns
    unfold requestEvs
    split
    · exact .inl (fun _ h => nomatch h)
    · refine .inr ⟨who, ns.map (trn s id), ?_⟩
      rw [List.length_map, List.map_map]
      rfl
  have one : ∀ (e : Said), ((∀ r, e ≠ .request r) ∧ ∀ w a x, e ≠ .feePaid w a x) →
      ∀ e' ∈ [e], (∀ r, e' ≠ .request r) ∧ ∀ w a x, e' ≠ .feePaid w a x := by
    intro e he e' h
    rw [List.mem_singleton.1 h]
    exact he
  cases op with
  | manual who t => exact .inr ⟨who, [t], rfl⟩
  | nft op =>
    cases op with
    | mint who id q r e =>
      simp only [evs, nftEvs]
      cases s.nft.coll id with
      | none => exact .inl (fun _ h => nomatch h)
      | some k => exact hr _ _ _
    | burn who id n => exact .inl (one _ ⟨(fun _ h => nomatch h), (fun _ _ _ h => nomatch h)⟩)
    | burnPrecompile who id n => exact .inl (one _ ⟨(fun _ h => nomatch h), (fun _ _ _ h => nomatch h)⟩)
    | _ => exact .inl (fun _ h => nomatch h)
  | sft op =>
    cases op with
    | createToken who id i m o e =>
      simp only [evs, sftEvs]
      cases s.sft.coll id with
      | none => exact .inl (fun _ h => nomatch h)
      | some k => exact hr _ _ _
    | _ => exact .inl (fun _ h => nomatch h)
  | _ => exact .inl (one _ ⟨(fun _ h => nomatch h), (fun _ _ _ h => nomatch h)⟩)

theorem mem_feeEvs {s : St} {who : Acct} {n : Nat} {e : Said} (h : e ∈ feeEvs s who n) :
    ∃ f, s.fee = some f ∧ e = .feePaid who f.asset (totalFee f n) := by
  unfold feeEvs at h
  split at h
  · rename_i f hf
    exact ⟨f, hf, List.mem_singleton.1 h⟩
  · cases h

/-- C248: a request is announced as one for existing data exactly if there is data on the reader's page. -/
theorem C248_kind {c : Cfg} {g : St} (ops : List Op) {op : Op} {r : Request} (h : Said.request r ∈ tell c (exec c g ops) op) :
    r.old = (((view g).follow (story c g ops)).data r.token).isSome := by
  rw [C248_page]
  unfold tell at h
  split at h
  · rcases evs_shape (exec c g ops) op with hx | ⟨who, ts, hx⟩
    · exact absurd rfl ((hx _ h).1 r)
    · rw [hx] at h
      rcases List.mem_append.1 h with h | h
      · obtain ⟨f, _, hf⟩ := mem_feeEvs h
        cases hf
      · obtain ⟨t, _, ht⟩ := List.mem_map.1 h
        cases ht
        rfl
  · cases h

/-- C248: account 1 asks again for token 1, which has data. -/
example : tell cfg0 s0 (.manual 1 ⟨7668, .u32 100, .u32 1⟩) =
    [.feePaid 1 2 301, .request ⟨1, ⟨7668, .u32 100, .u32 1⟩, true⟩] := by decide +kernel

/-- C248: a fee is announced in the asset on the reader's page, as the price on the page for each request announced with it
(at most what a balance can be), and in the name of the account that asks. -/
theorem C248_fee {c : Cfg} {g : St} (ops : List Op) {op : Op} {who : Acct} {a : AssetId} {x : Nat}
    (h : Said.feePaid who a x ∈ tell c (exec c g ops) op) :
    ∃ f, ((view g).follow (story c g ops)).fee = some f ∧ a = f.asset ∧
      x = min ((tell c (exec c g ops) op).countP Said.asks * f.amount) (U128 - 1) ∧
      ∀ r, Said.request r ∈ tell c (exec c g ops) op → r.caller = who := by
  rw [C248_page]
  generalize exec c g ops = s at *
  have ht : tell c s op = evs s op ∨ tell c s op = [] := by
    unfold tell
    split
    · exact .inl rfl
    · exact .inr rfl
  rcases ht with ht | ht
  · rw [ht] at h ⊢
    rcases evs_shape s op with hx | ⟨w, ts, hx⟩
    · exact absurd rfl ((hx _ h).2 who a x)
    · rw [hx] at h ⊢
      have hc : ∀ l : List Tid, (l.map (sendEv s w)).countP Said.asks = l.length := by
        intro l
        induction l with
        | nil => rfl
        | cons t l ih => rw [List.map_cons, List.countP_cons_of_pos rfl, ih, List.length_cons]
      rcases List.mem_append.1 h with h | h
      · obtain ⟨f, hf, he⟩ := mem_feeEvs h
        cases he
        refine ⟨f, hf, rfl, ?_, fun r hr => ?_⟩
        · rw [List.countP_append, hc]
          have : (feeEvs s who ts.length).countP Said.asks = 0 := by
            simp only [feeEvs, hf]
            rfl
          rw [this, Nat.zero_add]
          rfl
        · rcases List.mem_append.1 hr with hr | hr
          · obtain ⟨f', _, he⟩ := mem_feeEvs hr
            cases he
          · obtain ⟨t, _, ht⟩ := List.mem_map.1 hr
            cases ht
            rfl
      · obtain ⟨t, _, ht⟩ := List.mem_map.1 h
        cases ht
  · rw [ht] at h
    cases h

/-- C248 fails for removals: a burnt token is announced to have lost its data although it had none. -/
theorem C248_removed_refuted :
    ∃ s t op, Reach cfg0 Fixed s ∧ s.data t = none ∧ tell cfg0 s op = [.removed t] :=
  ⟨s0, ⟨7668, .u32 100, .u32 0⟩, .nft (.burn 1 100 0), s0_reach, by decide +kernel, by decide +kernel⟩

end Verif.Nfi
