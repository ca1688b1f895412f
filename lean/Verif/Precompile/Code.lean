import Verif.Precompile.Props
import Verif.Nft.Inv

/-!
# Model of the bytecode kept at the addresses of tokens

Contracts and libraries look at the length of the code at an address (`EXTCODESIZE`) before they treat it as a contract.
Tokens are built in and have no bytecode, so the chain stores some bytes at the address of every token it creates:
`OnNewAssetSubscription` of /repo/runtime/src/impls.rs:418-436, called from /repo/pallet/assets-ext/src/lib.rs:691-721,
/repo/pallet/nft/src/impls.rs:451-457 and /repo/pallet/sft/src/impls.rs:60-68. Other conditions for creating a token (fees,
names, royalties) are left out: a creation that fails for them changes nothing. Contracts of users may appear at any address
that holds no code: that addresses of new contracts are hashes is not used.
-/

namespace Verif.Precompile

open Verif
open Verif.Nft (nextAssetUuid)

/-- impls.rs:432-435: "TRN Asset Precompile". -/
def assetCode : List Nat :=
  [0x54, 0x52, 0x4e, 0x20, 0x41, 0x73, 0x73, 0x65, 0x74, 0x20, 0x50, 0x72, 0x65, 0x63, 0x6f, 0x6d, 0x70, 0x69, 0x6c, 0x65]

/-- Which tokens exist, the counters their ids come from, and the code at every address (`pallet-evm` `AccountCodes`, dependency). -/
structure CodeSt where
  w : World
  /-- `NextAssetId` of assets-ext -/
  nextAsset : Nat
  /-- `NextCollectionId` of nft, shared with sft -/
  nextColl : Nat
  /-- `AccountCodes` of pallet-evm; no entry is the empty list -/
  code : Nat → List Nat

/-- pallet-evm (dependency) `create_account` with code that is not empty: whatever was there is replaced. -/
def putCode (s : CodeSt) (a : Nat) (bytes : List Nat) : CodeSt := { s with code := upd s.code a bytes }

/-- impls.rs:418-436 `on_asset_create`. -/
def onAssetCreate (s : CodeSt) (pre id : Nat) : CodeSt := putCode s (encode pre id) assetCode

/-- What creates or removes tokens or code. -/
inductive CodeOp where
  /-- assets-ext `create`: by `create_asset`, by the exchange for liquidity tokens and by the ERC-20 bridge -/
  | createAsset
  /-- pallet-assets `force_create`, by root -/
  | forceCreate (id : Nat)
  /-- pallet-assets `finish_destroy` -/
  | destroy (id : Nat)
  | createNft
  | createSft
  /-- A contract is deployed at `a`. -/
  | deploy (a : Nat) (bytes : List Nat)
  /-- The contract at `a` destroys itself. -/
  | selfdestruct (a : Nat)

/-- runtime/src/lib.rs:458 `WorldId`. -/
def worldId : Nat := 100

/-- The files and lines are at each case. -/
def codeStep (s : CodeSt) : CodeOp → Except Err CodeSt
  | .createAsset => do
    -- assets-ext/src/lib.rs:699-712; pallet-assets `create` (dependency) refuses an id in use
    let id ← okOr (nextAssetUuid s.nextAsset worldId) "NoAvailableIds"
    ensure (s.w.assets id = false) "InUse"
    let s1 := { s with
      w := { s.w with assets := upd s.w.assets id true }
      nextAsset := s.nextAsset + 1 }
    pure (onAssetCreate s1 prefix20 id)
  | .forceCreate id => do
    ensure (id < 2 ^ 32) "Undecodable"
    ensure (s.w.assets id = false) "InUse"
    pure { s with w := { s.w with assets := upd s.w.assets id true } }
  | .destroy id => do
    ensure (s.w.assets id = true) "Unknown"
    pure { s with w := { s.w with assets := upd s.w.assets id false } }
  | .createNft => do
    -- nft/src/impls.rs:389, 448-457
    let id ← okOr (nextAssetUuid s.nextColl worldId) "NoAvailableIds"
    let s1 := { s with
      w := { s.w with nfts := upd s.w.nfts id true }
      nextColl := s.nextColl + 1 }
    pure (onAssetCreate s1 prefix721 id)
  | .createSft => do
    -- sft/src/impls.rs:32, 59-68
    let id ← okOr (nextAssetUuid s.nextColl worldId) "NoAvailableIds"
    let s1 := { s with
      w := { s.w with sfts := upd s.w.sfts id true }
      nextColl := s.nextColl + 1 }
    pure (onAssetCreate s1 prefix1155 id)
  | .deploy a bytes => do
    -- the EVM (dependency) refuses to create a contract where there is code
    ensure (s.code a = []) "CreateCollision"
    ensure (bytes ≠ []) "NoCode"
    pure (putCode s a bytes)
  | .selfdestruct a => do
    -- only running bytecode does this: none runs where a built-in contract answers, and the bytes of `assetCode` start
    -- with 0x54 (SLOAD), which fails on the empty stack
    ensure ((find s.w a frags).isNone = true) "BuiltIn"
    ensure (s.code a ≠ [] ∧ s.code a ≠ assetCode) "NotRunning"
    pure { s with code := upd s.code a [] }

/-- A history; what fails changes nothing. -/
def codeRun (s : CodeSt) : List CodeOp → CodeSt
  | [] => s
  | o :: os =>
    match codeStep s o with
    | .ok s' => codeRun s' os
    | .error _ => codeRun s os

/-- /repo/client/src/chain_spec.rs:150-165, 192, 230 (the assets ROOT, XRP and VTX; no code in the EVM), and
assets-ext/src/lib.rs:99-104, nft/src/lib.rs:100-105. -/
def codeGenesis : CodeSt where
  w := ⟨fun _ => false, fun _ => false, fun i => decide (i = 1 ∨ i = 2 ∨ i = 3)⟩
  nextAsset := 1
  nextColl := 1
  code := fun _ => []

/-- What happens to a call of an address. -/
inductive Outcome where
  | builtIn (svc : Service)
  /-- There is no code: the call succeeds and does nothing. -/
  | nothing
  | fails
  | runs (bytes : List Nat)
deriving DecidableEq

/-- /repo/runtime/src/precompiles.rs: built-in contracts are looked for first; otherwise the EVM (dependency) runs the code there. -/
def callOutcome (s : CodeSt) (a : Nat) : Outcome :=
  match find s.w a frags with
  | some (_, svc) => .builtIn svc
  | none => if s.code a = [] then .nothing else if s.code a = assetCode then .fails else .runs (s.code a)

/-! ## Proofs -/

theorem codeRun_cons {s : CodeSt} {o : CodeOp} {os : List CodeOp} :
    (∃ s', codeStep s o = .ok s' ∧ codeRun s (o :: os) = codeRun s' os) ∨ codeRun s (o :: os) = codeRun s os := by
  simp only [codeRun]
  cases h : codeStep s o with
  | ok s' => exact Or.inl ⟨s', rfl, rfl⟩
  | error e => exact Or.inr rfl

theorem codeStep_stays {s s' : CodeSt} {o : CodeOp} {a : Nat} (h : codeStep s o = .ok s') (ha : s.code a = assetCode) :
    s'.code a = assetCode := by
  cases o <;> simp only [codeStep, bind_ok, ensure_ok, okOr_ok, pure_ok, onAssetCreate, putCode] at h
  case createAsset => obtain ⟨id, -, -, -, rfl⟩ := h; simp only [upd_apply]; split <;> simp [ha]
  case forceCreate id => obtain ⟨-, -, -, -, rfl⟩ := h; exact ha
  case destroy id => obtain ⟨-, -, rfl⟩ := h; exact ha
  case createNft => obtain ⟨id, -, rfl⟩ := h; simp only [upd_apply]; split <;> simp [ha]
  case createSft => obtain ⟨id, -, rfl⟩ := h; simp only [upd_apply]; split <;> simp [ha]
  case deploy b bytes =>
    obtain ⟨-, hc, -, -, rfl⟩ := h
    simp only [upd_apply]
    split
    · rename_i e; subst e; rw [ha] at hc; cases hc
    · exact ha
  case selfdestruct b =>
    obtain ⟨-, -, -, hc, rfl⟩ := h
    simp only [upd_apply]
    split
    · rename_i e; subst e; exact absurd ha hc.2
    · exact ha

theorem codeRun_stays {a : Nat} : ∀ {os : List CodeOp} {s : CodeSt}, s.code a = assetCode → (codeRun s os).code a = assetCode
  | [], _, h => h
  | o :: os, s, h => by
    rcases codeRun_cons (s := s) (o := o) (os := os) with ⟨s', h1, h2⟩ | h2
    · rw [h2]; exact codeRun_stays (codeStep_stays h1 h)
    · rw [h2]; exact codeRun_stays h

/-! ## Specification -/

/-- A collection or an asset. -/
inductive Token where
  | nft (id : Nat)
  | sft (id : Nat)
  | asset (id : Nat)
deriving DecidableEq

/-- Whether it exists. -/
def Token.live (s : CodeSt) : Token → Bool
  | .nft id => s.w.nfts id
  | .sft id => s.w.sfts id
  | .asset id => s.w.assets id

/-- Its address: four bytes for the kind, four for the number, twelve zero bytes. -/
def Token.addr : Token → Nat
  | .nft id => 0xAAAAAAAA * 2 ^ 128 + id * 2 ^ 96
  | .sft id => 0xBBBBBBBB * 2 ^ 128 + id * 2 ^ 96
  | .asset id => 0xCCCCCCCC * 2 ^ 128 + id * 2 ^ 96

/-- Its number. -/
def Token.num : Token → Nat
  | .nft id => id
  | .sft id => id
  | .asset id => id

theorem uuid_eq {i id : Nat} (h : nextAssetUuid i worldId = some id) : id = i * 1024 + 100 := by
  unfold nextAssetUuid at h
  split at h
  · cases h
  · simp only [worldId, Option.some.injEq] at h
    have := Nat.shiftLeft_add_eq_or_of_lt (a := i) (b := 100) (i := 10) (by omega)
    rw [Nat.shiftLeft_eq] at this h
    omega

/-- What holds all along. -/
structure CodeInv (forced : Nat → Prop) (s : CodeSt) : Prop where
  small : s.nextAsset ≤ 4194303 ∧ s.nextColl ≤ 4194303
  coded : ∀ t, Token.live s t = true → s.code t.addr = assetCode ∨ ∃ id, t = .asset id ∧ forced id
  size : ∀ t, Token.live s t = true → t.num < 2 ^ 32

theorem CodeInv.mono {f g : Nat → Prop} {s : CodeSt} (h : CodeInv f s) (hg : ∀ id, f id → g id) : CodeInv g s :=
  ⟨h.small, fun t ht => (h.coded t ht).imp id (fun ⟨i, a, b⟩ => ⟨i, a, hg i b⟩), h.size⟩

theorem CodeInv.step {f : Nat → Prop} {s s' : CodeSt} {o : CodeOp} (hI : CodeInv f s) (h : codeStep s o = .ok s') :
    CodeInv (fun id => f id ∨ o = .forceCreate id) s' := by
  have keep : ∀ t, Token.live s t = true → s'.code t.addr = assetCode ∨ ∃ id, t = .asset id ∧ (f id ∨ o = .forceCreate id) :=
    fun t ht => (hI.coded t ht).imp (codeStep_stays h) (fun ⟨i, a, b⟩ => ⟨i, a, Or.inl b⟩)
  cases o <;> simp only [codeStep, bind_ok, ensure_ok, okOr_ok, pure_ok, onAssetCreate, putCode] at h
  case createAsset =>
    obtain ⟨id, hid, -, -, rfl⟩ := h
    have hs := Nft.uuid_bound hid hI.small.1
    have e := uuid_eq hid
    refine ⟨⟨hs, hI.small.2⟩, fun t ht => ?_, fun t ht => ?_⟩
    · cases t with
      | nft j => exact keep (.nft j) ht
      | sft j => exact keep (.sft j) ht
      | asset j =>
        by_cases hj : j = id
        · subst hj; exact Or.inl (by simp only [Token.addr, encode, prefix20, upd_same])
        · refine keep (.asset j) ?_
          simpa only [Token.live, upd_ne _ _ hj] using ht
    · cases t with
      | nft j => exact hI.size (.nft j) ht
      | sft j => exact hI.size (.sft j) ht
      | asset j =>
        by_cases hj : j = id
        · subst hj; simp only [Token.num]; omega
        · refine hI.size (.asset j) ?_
          simpa only [Token.live, upd_ne _ _ hj] using ht
  case forceCreate id =>
    obtain ⟨-, hid, -, -, rfl⟩ := h
    refine ⟨hI.small, fun t ht => ?_, fun t ht => ?_⟩
    · cases t with
      | nft j => exact keep (.nft j) ht
      | sft j => exact keep (.sft j) ht
      | asset j =>
        by_cases hj : j = id
        · subst hj; exact Or.inr ⟨j, rfl, Or.inr rfl⟩
        · refine keep (.asset j) ?_
          simpa only [Token.live, upd_ne _ _ hj] using ht
    · cases t with
      | nft j => exact hI.size (.nft j) ht
      | sft j => exact hI.size (.sft j) ht
      | asset j =>
        by_cases hj : j = id
        · subst hj; simp only [Token.num]; omega
        · refine hI.size (.asset j) ?_
          simpa only [Token.live, upd_ne _ _ hj] using ht
  case destroy id =>
    obtain ⟨-, -, rfl⟩ := h
    have sub : ∀ t, Token.live { s with w := { s.w with assets := upd s.w.assets id false } } t = true →
        Token.live s t = true := by
      intro t ht
      cases t with
      | nft j => exact ht
      | sft j => exact ht
      | asset j =>
        simp only [Token.live, upd_apply] at ht ⊢
        split at ht
        · cases ht
        · exact ht
    exact ⟨hI.small, fun t ht => keep t (sub t ht), fun t ht => hI.size t (sub t ht)⟩
  case createNft =>
    obtain ⟨id, hid, rfl⟩ := h
    have hs := Nft.uuid_bound hid hI.small.2
    have e := uuid_eq hid
    refine ⟨⟨hI.small.1, hs⟩, fun t ht => ?_, fun t ht => ?_⟩
    · cases t with
      | asset j => exact keep (.asset j) ht
      | sft j => exact keep (.sft j) ht
      | nft j =>
        by_cases hj : j = id
        · subst hj; exact Or.inl (by simp only [Token.addr, encode, prefix721, upd_same])
        · refine keep (.nft j) ?_
          simpa only [Token.live, upd_ne _ _ hj] using ht
    · cases t with
      | asset j => exact hI.size (.asset j) ht
      | sft j => exact hI.size (.sft j) ht
      | nft j =>
        by_cases hj : j = id
        · subst hj; simp only [Token.num]; omega
        · refine hI.size (.nft j) ?_
          simpa only [Token.live, upd_ne _ _ hj] using ht
  case createSft =>
    obtain ⟨id, hid, rfl⟩ := h
    have hs := Nft.uuid_bound hid hI.small.2
    have e := uuid_eq hid
    refine ⟨⟨hI.small.1, hs⟩, fun t ht => ?_, fun t ht => ?_⟩
    · cases t with
      | asset j => exact keep (.asset j) ht
      | nft j => exact keep (.nft j) ht
      | sft j =>
        by_cases hj : j = id
        · subst hj; exact Or.inl (by simp only [Token.addr, encode, prefix1155, upd_same])
        · refine keep (.sft j) ?_
          simpa only [Token.live, upd_ne _ _ hj] using ht
    · cases t with
      | asset j => exact hI.size (.asset j) ht
      | nft j => exact hI.size (.nft j) ht
      | sft j =>
        by_cases hj : j = id
        · subst hj; simp only [Token.num]; omega
        · refine hI.size (.sft j) ?_
          simpa only [Token.live, upd_ne _ _ hj] using ht
  case deploy a b =>
    obtain ⟨-, -, -, -, rfl⟩ := h
    exact ⟨hI.small, fun t ht => keep t (by cases t <;> exact ht), fun t ht => hI.size t (by cases t <;> exact ht)⟩
  case selfdestruct a =>
    obtain ⟨-, -, -, -, rfl⟩ := h
    exact ⟨hI.small, fun t ht => keep t (by cases t <;> exact ht), fun t ht => hI.size t (by cases t <;> exact ht)⟩

theorem CodeInv.run : ∀ {os : List CodeOp} {f : Nat → Prop} {s : CodeSt}, CodeInv f s →
    CodeInv (fun id => f id ∨ .forceCreate id ∈ os) (codeRun s os)
  | [], f, s, h => h.mono (fun _ => Or.inl)
  | o :: os, f, s, h => by
    rcases codeRun_cons (s := s) (o := o) (os := os) with ⟨s', h1, h2⟩ | h2
    · rw [h2]
      refine (CodeInv.run (h.step h1)).mono (fun id hid => ?_)
      rcases hid with (hid | hid) | hid
      · exact Or.inl hid
      · exact Or.inr (hid ▸ List.mem_cons_self ..)
      · exact Or.inr (List.mem_cons_of_mem _ hid)
    · rw [h2]
      exact (CodeInv.run h).mono (fun id hid => hid.imp (fun x => x) (List.mem_cons_of_mem _))

theorem codeGenesis_inv : CodeInv (fun id => id = 1 ∨ id = 2 ∨ id = 3) codeGenesis := by
  refine ⟨⟨by decide, by decide⟩, fun t ht => ?_, fun t ht => ?_⟩ <;> cases t <;>
    simp only [Token.live, codeGenesis, decide_eq_true_eq, Bool.false_eq_true] at ht
  · exact Or.inr ⟨_, rfl, ht⟩
  · simp only [Token.num]; omega

/-- C243, for all tokens but those of the genesis block and those root created by force: whatever happens, there is code at
the address of a token that exists. -/
theorem C243_partial (os : List CodeOp) (t : Token) (h : t.live (codeRun codeGenesis os) = true)
    (hg : ∀ id, t = .asset id → id ≠ 1 ∧ id ≠ 2 ∧ id ≠ 3 ∧ .forceCreate id ∉ os) :
    (codeRun codeGenesis os).code t.addr = assetCode ∧ assetCode.length = 20 := by
  refine ⟨?_, rfl⟩
  rcases (CodeInv.run codeGenesis_inv (os := os)).coded t h with h1 | ⟨id, rfl, (h1 | h1) | h1⟩
  · exact h1
  · exact absurd h1 (hg id rfl).1
  · obtain h1 | h1 := h1
    · exact absurd h1 (hg id rfl).2.1
    · exact absurd h1 (hg id rfl).2.2.1
  · exact absurd h1 (hg id rfl).2.2.2

/-- C243: the code once put there stays, also when the token is destroyed: no contract can be deployed in its place. -/
theorem C243_stays {a : Nat} (s : CodeSt) (os : List CodeOp) (h : s.code a = assetCode) :
    (codeRun s os).code a = assetCode ∧ ∀ bytes, (codeStep (codeRun s os) (.deploy a bytes)).isOk = false := by
  have e := codeRun_stays (os := os) h
  refine ⟨e, fun bytes => ?_⟩
  have hn : ¬ (codeRun s os).code a = [] := by rw [e]; decide
  simp only [codeStep, ensure, hn, if_false]
  rfl

theorem outcome_some {s : CodeSt} {a : Nat} {f : Frag} {svc : Service} (h : find s.w a frags = some (f, svc)) :
    callOutcome s a = .builtIn svc := by
  unfold callOutcome
  rw [h]

theorem outcome_dead {s : CodeSt} {a : Nat} (h : find s.w a frags = none) (hc : s.code a = assetCode) :
    callOutcome s a = .fails := by
  have h0 : assetCode ≠ [] := by decide
  unfold callOutcome
  rw [h, hc]
  simp only [if_neg h0, if_true]

/-- C243: a call of a token that exists reaches it, and a call of an asset that was destroyed fails instead of appearing to
succeed. -/
theorem C243_calls (os1 os2 : List CodeOp) (id : Nat) (h1 : Token.live (codeRun codeGenesis os1) (.asset id) = true)
    (hg : id ≠ 1 ∧ id ≠ 2 ∧ id ≠ 3 ∧ .forceCreate id ∉ os1) :
    callOutcome (codeRun (codeRun codeGenesis os1) os2) (Token.asset id).addr =
      if Token.live (codeRun (codeRun codeGenesis os1) os2) (.asset id) = true then .builtIn (.erc20 id) else .fails := by
  have hc := codeRun_stays (os := os2) (C243_partial os1 (.asset id) h1 (fun j e => by cases e; exact hg)).1
  have hid := (CodeInv.run codeGenesis_inv (os := os1)).size _ h1
  generalize codeRun (codeRun codeGenesis os1) os2 = s at *
  simp only [Token.num] at hid
  have ha : (Token.asset id).addr < 2 ^ 160 := by simp only [Token.addr]; omega
  have hae : (Token.asset id).addr = encode prefix20 id := by simp only [Token.addr, encode, prefix20]
  have hs : ∀ svc, Serves s.w (Token.asset id).addr svc → svc = .erc20 id ∧ s.w.assets id = true := by
    intro svc h
    cases svc <;> simp only [Serves, Token.addr] at h
    case standard n => omega
    case nft => omega
    case sft => omega
    case peg => omega
    case dex => omega
    case registrar => omega
    case market => omega
    case erc721 j => obtain ⟨-, hj, t, ht, e⟩ := h; omega
    case erc1155 j => obtain ⟨-, hj, t, ht, e⟩ := h; omega
    case erc20 j =>
      obtain ⟨hl, hj, t, ht, e⟩ := h
      have : j = id := by omega
      subst this
      exact ⟨rfl, hl⟩
    case futurepass b => omega
  by_cases hl : Token.live s (.asset id) = true
  · have hc' := (C149_canonical (w := s.w) hid).2.2 hl
    rw [← hae] at hc'
    obtain ⟨f, hf⟩ := (C149_serves ha).2 hc'
    rw [if_pos hl, outcome_some hf]
  · rw [if_neg hl]
    refine outcome_dead ?_ hc
    cases hf : find s.w (Token.asset id).addr frags with
    | none => rfl
    | some y =>
      obtain ⟨f, svc⟩ := y
      exact absurd (hs svc ((C149_serves ha).1 ⟨f, hf⟩)).2 hl

theorem uncoded {id : Nat} (hid : id < 100) : ∀ {os : List CodeOp} {s : CodeSt},
    s.nextAsset ≤ 4194303 ∧ s.nextColl ≤ 4194303 → s.code (Token.asset id).addr = [] →
    (∀ b, .deploy (Token.asset id).addr b ∉ os) → (codeRun s os).code (Token.asset id).addr = []
  | [], _, _, h, _ => h
  | o :: os, s, hn, h, ho => by
    have hos : ∀ b, CodeOp.deploy (Token.asset id).addr b ∉ os := fun b hb => ho b (List.mem_cons_of_mem _ hb)
    rcases codeRun_cons (s := s) (o := o) (os := os) with ⟨s', h1, h2⟩ | h2
    · rw [h2]
      have key : (s'.nextAsset ≤ 4194303 ∧ s'.nextColl ≤ 4194303) ∧ s'.code (Token.asset id).addr = [] := by
        cases o <;> simp only [codeStep, bind_ok, ensure_ok, okOr_ok, pure_ok, onAssetCreate, putCode] at h1
        case createAsset =>
          obtain ⟨j, hj, -, -, rfl⟩ := h1
          have e := uuid_eq hj
          refine ⟨⟨Nft.uuid_bound hj hn.1, hn.2⟩, ?_⟩
          have ne : (Token.asset id).addr ≠ encode prefix20 j := by simp only [Token.addr, encode, prefix20]; omega
          exact (upd_ne _ _ ne).trans h
        case forceCreate j => obtain ⟨-, -, -, -, rfl⟩ := h1; exact ⟨hn, h⟩
        case destroy j => obtain ⟨-, -, rfl⟩ := h1; exact ⟨hn, h⟩
        case createNft =>
          obtain ⟨j, hj, rfl⟩ := h1
          have e := uuid_eq hj
          have hb := Nft.uuid_bound hj hn.2
          refine ⟨⟨hn.1, hb⟩, ?_⟩
          have ne : (Token.asset id).addr ≠ encode prefix721 j := by simp only [Token.addr, encode, prefix721]; omega
          exact (upd_ne _ _ ne).trans h
        case createSft =>
          obtain ⟨j, hj, rfl⟩ := h1
          have e := uuid_eq hj
          have hb := Nft.uuid_bound hj hn.2
          refine ⟨⟨hn.1, hb⟩, ?_⟩
          have ne : (Token.asset id).addr ≠ encode prefix1155 j := by simp only [Token.addr, encode, prefix1155]; omega
          exact (upd_ne _ _ ne).trans h
        case deploy a b =>
          obtain ⟨-, -, -, -, rfl⟩ := h1
          refine ⟨hn, ?_⟩
          by_cases e : (Token.asset id).addr = a
          · subst e; exact absurd (List.mem_cons_self ..) (ho b)
          · exact (upd_ne _ _ e).trans h
        case selfdestruct a =>
          obtain ⟨-, -, -, -, rfl⟩ := h1
          refine ⟨hn, ?_⟩
          simp only [upd_apply]
          split
          · rfl
          · exact h
      exact uncoded hid key.1 key.2 hos
    · rw [h2]; exact uncoded hid hn h hos

/-- C243 is false of the tokens of the genesis block: XRP exists and its contract answers, but there is no code at its
address, and nothing that happens puts it there. -/
theorem C243_refuted : Token.live codeGenesis (.asset 2) = true ∧
    callOutcome codeGenesis (Token.asset 2).addr = .builtIn (.erc20 2) ∧
    ∀ os, (∀ b, .deploy (Token.asset 2).addr b ∉ os) → (codeRun codeGenesis os).code (Token.asset 2).addr = [] :=
  ⟨by decide, by decide +kernel, fun _ h => uncoded (by decide) ⟨by decide, by decide⟩ rfl h⟩

/-- C243 is false of assets that root creates by force. -/
theorem C243_forced_refuted : ∃ os id, Token.live (codeRun codeGenesis os) (.asset id) = true ∧
    (codeRun codeGenesis os).code (Token.asset id).addr = [] ∧ id ≠ 1 ∧ id ≠ 2 ∧ id ≠ 3 :=
  ⟨[.createAsset, .forceCreate 7], 7, by decide +kernel⟩

/-- A history that meets the hypotheses: an asset, a collection of each kind, a contract, the asset destroyed. -/
example :
    let os := [CodeOp.createAsset, .createNft, .createSft, .deploy 5000 [1, 2], .deploy (Token.nft 1124).addr [1],
      .selfdestruct 5000]
    let s := codeRun codeGenesis os
    Token.live s (.asset 1124) = true ∧ Token.live s (.nft 1124) = true ∧ Token.live s (.sft 2148) = true ∧
    s.code (Token.nft 1124).addr = assetCode ∧ s.code 5000 = [] ∧
    callOutcome s (Token.asset 1124).addr = .builtIn (.erc20 1124) ∧
    callOutcome (codeRun s [.destroy 1124]) (Token.asset 1124).addr = .fails ∧
    callOutcome s (Token.asset 1125).addr = .nothing := by decide +kernel

end Verif.Precompile
