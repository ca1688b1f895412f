import Verif.Nfi.Inv

/-!
# Properties of the NFI pallet

C139 the recorded data, C140 the fee, C141 who may do what.
-/

namespace Verif.Nfi

open Nft (Owns)

/-! ## Specification -/

/-- Somebody owns this NFT, or this SFT has been created. -/
def Real (s : St) (id n : Nat) : Prop :=
  (∃ k e, s.nft.coll id = some k ∧ e ∈ k.owned ∧ n ∈ e.serials) ∨ ∃ t, s.sft.tok id n = some t

/-- The account owns the NFT or SFT collection with this id. -/
def CollOwner (s : St) (id : Nat) (who : Acct) : Prop :=
  (∃ k, s.nft.coll id = some k ∧ k.owner = who) ∨ ∃ k, s.sft.coll id = some k ∧ k.owner = who

/-- From `L` to `L'`, the account pays `total` of the asset of the fee: the network part, `pct` parts per million rounded to
the nearest unit, goes to the pot if there is one, the rest to the receiver. Nothing else changes. -/
def Pays (pct : Nat) (f : Fee) (pot : Option Acct) (who : Acct) (total : Nat) (L L' : Ledger) : Prop :=
  ∃ net rest, net + rest = total ∧ (pot = none → net = 0) ∧
    (pot ≠ none → 1000000 * net ≤ pct * total + 500000 ∧ pct * total ≤ 1000000 * net + 500000) ∧
    L'.iss = L.iss ∧ (∀ b, b ≠ f.asset → L'.bal b = L.bal b) ∧
    ∀ y, L'.bal f.asset y + (if y = who then total else 0) =
      L.bal f.asset y + (if pot = some y then net else 0) + (if y = f.receiver then rest else 0)

/-- The bill for `count` tokens under the current settings. -/
def Billed (c : Cfg) (s : St) (who : Acct) (count : Nat) (L L' : Ledger) : Prop :=
  match s.fee with
  | none => L' = L
  | some f => Pays c.pct f s.feeTo who (count * f.amount) L L'

theorem real_iff {s : St} {id n : Nat} : Real s id n ↔ Lives s.nft id n ∨ (s.sft.tok id n).isSome = true := by
  unfold Real Lives Owns
  rw [Option.isSome_iff_exists]
  constructor
  · rintro (⟨k, e, h1, h2, h3⟩ | h)
    · exact Or.inl ⟨k, e.owner, h1, e, h2, rfl, h3⟩
    · exact Or.inr h
  · rintro (⟨k, a, h1, e, h2, _, h3⟩ | h)
    · exact Or.inl ⟨k, e, h1, h2, h3⟩
    · exact Or.inr h

/-! ## Example -/

/-- The runtime: half a percent for the network. -/
def cfg0 : Cfg := ⟨⟨1000000, 1000, 100, 999⟩, 1000000, 1000, 5000⟩

/-- Account 1 owns a million of asset 2; the chain is 7668. -/
def g0 : St where
  nft := {
    coll := fun _ => none
    locks := fun _ _ => none
    flags := fun _ => ⟨true, true, true⟩
    pubMint := fun _ => ⟨false, none⟩
    nextId := 0
    approvals := fun _ _ => none
    forAll := fun _ _ _ => false
    ledger := ⟨fun a x => if a = 2 ∧ x = 1 then 1000000 else 0, fun a => if a = 2 then 1000000 else 0⟩
    minted := [] }
  sft := {
    coll := fun _ => none
    tok := fun _ _ => none
    flags := fun _ => ⟨true, true, true⟩
    pubMint := fun _ _ => ⟨false, none⟩
    nextId := 0
    forAll := fun _ _ _ => false
    ledger := ⟨fun _ _ => 0, fun _ => 0⟩ }
  chain := 7668
  relayer := none
  fee := none
  feeTo := none
  data := fun _ => none
  enabled := fun _ _ => false
  requests := []

theorem g0_genesis : Genesis g0 :=
  ⟨⟨fun _ => rfl, rfl, fun _ _ => rfl, fun _ _ => rfl, fun _ _ _ => rfl, rfl⟩, ⟨fun _ => rfl, fun _ _ => rfl, rfl⟩, rfl,
    fun _ => rfl, fun _ _ => rfl, rfl⟩

/-- Not a change of the chain id. -/
def fixedB : Op → Bool
  | .setChain _ => false
  | _ => true

theorem fixedB_ok {op : Op} (h : fixedB op = true) : Fixed op := by
  rintro n rfl
  cases h

/-- Account 1 has an NFT collection (id 100) and an SFT collection (id 1124), both with NFI; there is a fee of 301 and a
pot; two NFTs are minted and an SFT is created, and the relayer has delivered data for NFT 1 and the SFT. -/
def ops0 : List Op :=
  [.setRelayer 50, .setFeeTo (some 60), .setFee (some ⟨2, 301, 70⟩),
   .nft (.create 1 0 none none none false), .sft (.createColl 1 none),
   .enable 1 100, .enable 1 1124, .nft (.mint 1 100 2 none true), .sft (.createToken 1 1124 5 none none true),
   .submit 50 ⟨7668, .u32 100, .u32 1⟩ 9, .submit 50 ⟨7668, .u32 1124, .u32 0⟩ 8, .submit 50 ⟨1, .h160 5, .u64 3⟩ 7]

def s0 : St := exec cfg0 g0 ops0

theorem s0_reach : Reach cfg0 Fixed s0 :=
  exec_reach ops0 (fun op h => fixedB_ok (by
    have : ops0.all fixedB = true := rfl
    exact List.all_eq_true.mp this op h)) (.init g0_genesis)

theorem Reach.any {c : Cfg} {G : Op → Prop} {s : St} (h : Reach c G s) : Reach c Any s := by
  induction h with
  | init hg => exact .init hg
  | step _ _ hs ih => exact ih.step trivial hs

/-! ## C139: the recorded data -/

/-- C139 (partial): as long as root does not change the EVM chain id, data recorded for a token of this chain belongs to a
token that exists, in a collection with NFI enabled, and is stored under the short form of its id. -/
theorem C139_data_partial {c : Cfg} {s : St} (h : Reach c Fixed s) {t : Tid} {d : Nat} (hd : s.data t = some d)
    (hc : t.chain = s.chain) :
    ∃ id n, t = ⟨s.chain, .u32 id, .u32 n⟩ ∧ s.enabled s.chain (.u32 id) = true ∧ Real s id n := by
  obtain ⟨a, id, n, h1, h2, h3⟩ := h.inv.data t d hd hc
  refine ⟨id, n, ?_, by rw [← h1]; exact a, real_iff.mpr h3⟩
  rw [← hc, ← h1, ← h2]

example : Reach cfg0 Fixed s0 ∧ s0.data ⟨7668, .u32 100, .u32 1⟩ = some 9 ∧ s0.data ⟨7668, .u32 1124, .u32 0⟩ = some 8 ∧
    s0.chain = 7668 := by
  refine ⟨s0_reach, ?_, ?_, ?_⟩ <;> decide +kernel

/-- C139: without that assumption it fails: the token is burnt while the chain id is another one, and the chain id then
changes back. The data of the burnt token is still there. -/
theorem C139_refuted : ∃ s t d, Reach cfg0 Any s ∧ s.data t = some d ∧ t = ⟨s.chain, .u32 100, .u32 1⟩ ∧ ¬ Real s 100 1 := by
  refine ⟨exec cfg0 s0 [.setChain 7672, .nft (.burn 1 100 1), .setChain 7668], ⟨7668, .u32 100, .u32 1⟩, 9,
    exec_reach _ (fun _ _ => trivial) s0_reach.any, ?_, ?_, ?_⟩
  · decide +kernel
  · have : (exec cfg0 s0 [.setChain 7672, .nft (.burn 1 100 1), .setChain 7668]).chain = 7668 := by decide +kernel
    rw [this]
  · rw [real_iff, ← lives_iff]
    decide +kernel

/-- C139: burning an NFT, in any way, removes its data and nothing else. -/
theorem C139_burn {c : Cfg} {s s' : St} {op : Nft.Op} {id n : Nat} (hb : Burns op id n)
    (hs : step c s (.nft op) = .ok s') :
    s'.data ⟨s.chain, .u32 id, .u32 n⟩ = none ∧ ∀ t, t ≠ ⟨s.chain, .u32 id, .u32 n⟩ → s'.data t = s.data t := by
  obtain ⟨m, _, ⟨j, k, hb', rfl⟩ | ⟨hb', _⟩⟩ := nftStep_ok hs
  · have : id = j ∧ n = k := by
      rcases hb with ⟨w, hw⟩ | ⟨w, hw⟩ <;> rcases hb' with ⟨w', hw'⟩ | ⟨w', hw'⟩ <;> rw [hw] at hw' <;> cases hw' <;>
        exact ⟨rfl, rfl⟩
    obtain ⟨rfl, rfl⟩ := this
    exact ⟨upd_same _ _ _, fun t ht => upd_ne _ _ ht⟩
  · exact absurd hb (hb' id n)

example : (∃ s', step cfg0 s0 (.nft (.burn 1 100 1)) = .ok s') ∧ Burns (.burn 1 100 1) 100 1 :=
  ⟨⟨_, ok_getD (d := s0) (x := step cfg0 s0 (.nft (.burn 1 100 1))) (by decide +kernel)⟩, Or.inl ⟨1, rfl⟩⟩

/-! ## C140: the fee -/

theorem share_near (p a : Nat) : 1000000 * share p a ≤ p * a + 500000 ∧ p * a ≤ 1000000 * share p a + 500000 := by
  unfold share
  generalize p * a = x
  omega

theorem share_le {p a : Nat} (h : p ≤ 1000000) : share p a ≤ a := by
  unfold share
  have : p * a ≤ 1000000 * a := Nat.mul_le_mul_right a h
  omega

theorem pay_bill {c : Cfg} {s : St} {who : Acct} {count : Nat} {L : Ledger} (hp : c.pct ≤ 1000000)
    (hu : ∀ f, s.fee = some f → count * f.amount < U128) (h : pay c s who count = .ok L) :
    Billed c s who count s.nft.ledger L := by
  unfold pay at h
  unfold Billed
  cases hf : s.fee with
  | none => rw [hf] at h; cases h; rfl
  | some f =>
    have ht : totalFee f count = count * f.amount := by
      unfold totalFee
      have := hu f hf
      show min _ _ = _
      omega
    rw [hf] at h
    dsimp only at h ⊢
    rw [ht] at h
    generalize count * f.amount = total at h
    cases hpot : s.feeTo with
    | none =>
      rw [hpot] at h
      obtain ⟨_, h1, h2, h3⟩ := Ledger.transfer_ok h
      refine ⟨0, total, by omega, fun _ => rfl, fun hx => absurd rfl hx, h1, h2, fun y => ?_⟩
      have := h3 y
      rw [if_neg (show ¬ none = some y from nofun)]
      omega
    | some pot =>
      rw [hpot] at h
      simp only [bind_ok] at h
      obtain ⟨L1, h1, h2⟩ := h
      obtain ⟨_, a1, a2, a3⟩ := Ledger.transfer_ok h1
      obtain ⟨_, b1, b2, b3⟩ := Ledger.transfer_ok h2
      have hle := share_le (a := total) hp
      refine ⟨share c.pct total, total - share c.pct total, by omega, nofun, fun _ => share_near _ _, b1.trans a1,
        fun b hb => (b2 b hb).trans (a2 b hb), fun y => ?_⟩
      have h3 := a3 y
      have h4 := b3 y
      generalize share c.pct total = net at *
      have e0 : (if some pot = some y then net else 0) = if y = pot then net else 0 := by
        by_cases e : y = pot
        · rw [if_pos e, if_pos (by rw [e])]
        · rw [if_neg e, if_neg (fun hx => e (Option.some.inj hx).symm)]
      rw [e0]
      split_ifs at h3 h4 ⊢ <;> omega

/-- C140: minting NFTs in a collection with NFI costs the minter the fee for every token minted, on top of what the NFT
pallet charges, and asks for the data of exactly the new tokens. Without NFI it costs nothing and asks for nothing. -/
theorem C140_mint {c : Cfg} {s s' : St} {who : Acct} {id q : Nat} {rcv : Option Acct} {ext : Bool} (hp : c.pct ≤ 1000000)
    (hu : ∀ f, s.fee = some f → q * f.amount < U128) (hs : step c s (.nft (.mint who id q rcv ext)) = .ok s') :
    ∃ n k, Nft.step c.nft s.nft (.mint who id q rcv ext) = .ok n ∧ s.nft.coll id = some k ∧
      (s.enabled s.chain (.u32 id) = false → s'.nft = n ∧ s'.requests = s.requests) ∧
      (s.enabled s.chain (.u32 id) = true → Billed c s who q n.ledger s'.nft.ledger ∧
        s'.nft = { n with ledger := s'.nft.ledger } ∧
        s'.requests = ((List.range q).map (fun i =>
          ⟨who, ⟨s.chain, .u32 id, .u32 (k.next + i)⟩, (s.data ⟨s.chain, .u32 id, .u32 (k.next + i)⟩).isSome⟩)).reverse ++
            s.requests) := by
  simp only [Nfi.step, nftStep, nftMint, bind_ok, okOr_ok] at hs
  obtain ⟨k, hk, n, hn, hr⟩ := hs
  refine ⟨n, k, hn, hk, ?_⟩
  rcases request_ok hr with ⟨h1, rfl⟩ | ⟨h1, L, hL, rfl⟩
  · refine ⟨fun _ => ⟨rfl, rfl⟩, fun h2 => ?_⟩
    change s.enabled s.chain (.u32 id) = false at h1
    rw [h1] at h2
    cases h2
  · refine ⟨fun h2 => ?_, fun _ => ?_⟩
    · change s.enabled s.chain (.u32 id) = true at h1
      rw [h1] at h2
      cases h2
    · rw [List.length_range'] at hL
      have := pay_bill (s := { s with nft := n }) hp hu hL
      refine ⟨this, rfl, ?_⟩
      dsimp only
      rw [List.range'_eq_map_range, List.map_map]
      rfl

/-- C140: creating an SFT in a collection with NFI costs the collection owner the fee for one token and asks for the data
of the new token. -/
theorem C140_token {c : Cfg} {s s' : St} {who : Acct} {id i : Nat} {m : Option Nat} {o : Option Acct} {ext : Bool}
    (hp : c.pct ≤ 1000000) (hu : ∀ f, s.fee = some f → f.amount < U128)
    (hs : step c s (.sft (.createToken who id i m o ext)) = .ok s') :
    ∃ k, s.sft.coll id = some k ∧ k.owner = who ∧
      (s.enabled s.chain (.u32 id) = false → s'.nft.ledger = s.nft.ledger ∧ s'.requests = s.requests) ∧
      (s.enabled s.chain (.u32 id) = true → Billed c s who 1 s.nft.ledger s'.nft.ledger ∧
        s'.requests = ⟨who, ⟨s.chain, .u32 id, .u32 k.next⟩, (s.data ⟨s.chain, .u32 id, .u32 k.next⟩).isSome⟩ ::
          s.requests) := by
  simp only [Nfi.step, sftStep, sftCreateToken, bind_ok, okOr_ok, ensure_ok, pure_ok] at hs
  obtain ⟨k, hk, _, hw, s1, hr, t, ht, rfl⟩ := hs
  refine ⟨k, hk, hw.symm, ?_⟩
  have hl : t.ledger = s1.nft.ledger := by
    simp only [Sft.createToken, bind_ok, ensure_ok, okOr_ok, pure_ok] at ht
    obtain ⟨_, _, k, hk, _, _, _, _, _, _, _, _, rfl⟩ := ht
    rfl
  rcases request_ok hr with ⟨h1, rfl⟩ | ⟨h1, L, hL, rfl⟩
  · exact ⟨fun _ => ⟨hl, rfl⟩, fun h2 => (by rw [h1] at h2; cases h2)⟩
  · refine ⟨fun h2 => (by rw [h1] at h2; cases h2), fun _ => ⟨?_, rfl⟩⟩
    have := pay_bill hp (fun f hf => by have := hu f hf; simpa using this) hL
    show Billed c s who 1 s.nft.ledger t.ledger
    rw [hl]
    exact this

/-- C140: a request by hand costs the fee for one token and asks for the data of that token. -/
theorem C140_manual {c : Cfg} {s s' : St} {who : Acct} {t : Tid} (hp : c.pct ≤ 1000000)
    (hu : ∀ f, s.fee = some f → f.amount < U128) (hs : step c s (.manual who t) = .ok s') :
    Billed c s who 1 s.nft.ledger s'.nft.ledger ∧ s'.requests = ⟨who, t, (s.data t).isSome⟩ :: s.requests := by
  simp only [Nfi.step, manual, bind_ok, pure_ok] at hs
  obtain ⟨_, _, L, hL, rfl⟩ := hs
  exact ⟨pay_bill hp (fun f hf => by have := hu f hf; simpa using this) hL, rfl⟩

/-- C140: nothing else asks for data or is charged: an operation of the NFT or SFT pallet moves what it moves without NFI,
and the other calls move nothing. -/
theorem C140_else {c : Cfg} {s s' : St} {op : Op} (hs : step c s op = .ok s') (hm : ∀ w t, op ≠ .manual w t)
    (hn : ∀ w i q r e, op ≠ .nft (.mint w i q r e)) (ht : ∀ w i a m o e, op ≠ .sft (.createToken w i a m o e)) :
    s'.requests = s.requests ∧
    (∀ o, op = .nft o → Nft.step c.nft s.nft o = .ok s'.nft) ∧
    (∀ o, op = .sft o → ∃ t, Sft.step c.sft s.sftView o = .ok t ∧ s'.nft.ledger = t.ledger) ∧
    ((∀ o, op ≠ .nft o) → (∀ o, op ≠ .sft o) → s'.nft.ledger = s.nft.ledger) := by
  cases op with
  | setRelayer r => cases hs; exact ⟨rfl, nofun, nofun, fun _ _ => rfl⟩
  | setFeeTo a => cases hs; exact ⟨rfl, nofun, nofun, fun _ _ => rfl⟩
  | setFee f =>
    simp only [step, bind_ok, ensure_ok, pure_ok] at hs
    obtain ⟨_, _, rfl⟩ := hs
    exact ⟨rfl, nofun, nofun, fun _ _ => rfl⟩
  | enable w i =>
    simp only [step, enable, bind_ok, ensure_ok, pure_ok] at hs
    obtain ⟨_, _, rfl⟩ := hs
    exact ⟨rfl, nofun, nofun, fun _ _ => rfl⟩
  | manual w t => exact absurd rfl (hm w t)
  | submit w t d =>
    simp only [step, submit, bind_ok, ensure_ok, pure_ok] at hs
    obtain ⟨_, _, _, _, rfl⟩ := hs
    exact ⟨rfl, nofun, nofun, fun _ _ => rfl⟩
  | setChain n => cases hs; exact ⟨rfl, nofun, nofun, fun _ _ => rfl⟩
  | nft o =>
    have key : Nft.step c.nft s.nft o = .ok s'.nft ∧ s'.requests = s.requests := by
      cases o with
      | mint w i q r e => exact absurd rfl (hn w i q r e)
      | _ =>
        simp only [step, nftStep, bind_ok, pure_ok] at hs
        obtain ⟨m, h1, rfl⟩ := hs
        exact ⟨h1, rfl⟩
    exact ⟨key.2, fun o' e => by cases e; exact key.1, nofun, fun h _ => absurd rfl (h o)⟩
  | sft o =>
    have key : ∃ t, Sft.step c.sft s.sftView o = .ok t ∧ s' = s.putSft t := by
      cases o with
      | createToken w i a m o e => exact absurd rfl (ht w i a m o e)
      | _ =>
        simp only [step, sftStep, bind_ok, pure_ok] at hs
        obtain ⟨m, h1, rfl⟩ := hs
        exact ⟨m, h1, rfl⟩
    obtain ⟨t, h1, rfl⟩ := key
    exact ⟨rfl, nofun, fun o' e => by cases e; exact ⟨t, h1, rfl⟩, fun _ h => absurd rfl (h o)⟩

example : ∃ s', step cfg0 s0 (.nft (.burn 1 100 1)) = .ok s' :=
  ⟨_, ok_getD (d := s0) (x := step cfg0 s0 (.nft (.burn 1 100 1))) (by decide +kernel)⟩

/-- C140: a fee, when there is one, is never zero. -/
theorem C140_positive {c : Cfg} {s : St} {G : Op → Prop} (h : Reach c G s) {f : Fee} (hf : s.fee = some f) :
    f.amount ≠ 0 := by
  induction h with
  | init hg => rw [hg.fee] at hf; cases hf
  | @step s s' op hr hg hs ih =>
    cases op with
    | setRelayer r => cases hs; exact ih hf
    | setFeeTo r => cases hs; exact ih hf
    | setFee f' =>
      simp only [Nfi.step, bind_ok, ensure_ok, pure_ok] at hs
      obtain ⟨_, hx, rfl⟩ := hs
      exact hx f hf
    | enable who id =>
      simp only [Nfi.step, enable, bind_ok, ensure_ok, pure_ok] at hs
      obtain ⟨_, _, rfl⟩ := hs
      exact ih hf
    | manual who t =>
      simp only [Nfi.step, manual, bind_ok, pure_ok] at hs
      obtain ⟨_, _, L, _, rfl⟩ := hs
      exact ih hf
    | submit who t d =>
      simp only [Nfi.step, submit, bind_ok, ensure_ok, pure_ok] at hs
      obtain ⟨_, _, _, _, rfl⟩ := hs
      exact ih hf
    | setChain n => cases hs; exact ih hf
    | nft op =>
      obtain ⟨m, e, ⟨id, n, _, rfl⟩ | ⟨_, L, R, rfl⟩⟩ := nftStep_ok hs
      · exact ih hf
      · exact ih hf
    | sft op =>
      obtain ⟨L, R, t, e, rfl⟩ := sftStep_ok hs
      exact ih hf

/-- In the example: the network gets 3 of the 602 for two tokens, and 2 of the 301 for one. -/
example : s0.fee = some ⟨2, 301, 70⟩ ∧ s0.nft.ledger.bal 2 1 = 1000000 - 903 ∧ s0.nft.ledger.bal 2 60 = 3 + 2 ∧
    s0.nft.ledger.bal 2 70 = 599 + 299 ∧ s0.requests.length = 3 ∧ s0.enabled s0.chain (.u32 100) = true ∧
    (step cfg0 s0 (.nft (.mint 1 100 2 none true))).isOk = true ∧
    (step cfg0 s0 (.sft (.createToken 1 1124 5 none none true))).isOk = true ∧
    (step cfg0 s0 (.manual 1 ⟨7668, .u32 100, .u32 1⟩)).isOk = true := by
  refine ⟨?_, ?_, ?_, ?_, ?_, ?_, ?_, ?_, ?_⟩ <;> decide +kernel

/-! ## C141: who may do what -/

theorem owner_iff {c : Cfg} {s : St} (h : Two c s) {id : Nat} {who : Acct} :
    isCollectionOwner s id who = true ↔ CollOwner s id who := by
  unfold isCollectionOwner CollOwner
  rcases h.apart id with h1 | h1
  · rw [h1]
    cases h2 : s.sft.coll id <;> simp [eq_comm]
  · rw [h1]
    cases h2 : s.nft.coll id <;> simp [eq_comm]

/-- C141: the owner of a collection, NFT or SFT, and nobody else can enable NFI for it. This sets one flag. -/
theorem C141_enable {c : Cfg} {G : Op → Prop} {s : St} (h : Reach c G s) {who : Acct} {id : Nat} :
    (∀ s', step c s (.enable who id) = .ok s' → CollOwner s id who ∧ s'.enabled s.chain (.u32 id) = true ∧
      (∀ n g, (n ≠ s.chain ∨ g ≠ .u32 id) → s'.enabled n g = s.enabled n g) ∧ s'.data = s.data ∧
      s'.nft = s.nft ∧ s'.sft = s.sft ∧ s'.requests = s.requests) ∧
    (CollOwner s id who → ∃ s', step c s (.enable who id) = .ok s') := by
  refine ⟨fun s' hs => ?_, fun ho => ?_⟩
  · simp only [Nfi.step, enable, bind_ok, ensure_ok, pure_ok] at hs
    obtain ⟨_, ho, rfl⟩ := hs
    refine ⟨(owner_iff h.two).mp ho, ?_, ?_, rfl, rfl, rfl, rfl⟩
    · dsimp only
      rw [upd_same, upd_same]
    · intro n g hx
      dsimp only
      by_cases hn : n = s.chain
      · subst hn
        rw [upd_same, upd_ne _ _ (hx.resolve_left (fun hne => hne rfl))]
      · rw [upd_ne _ _ hn]
  · simp only [Nfi.step, enable, bind_ok, ensure_ok, pure_ok]
    exact ⟨_, (), (owner_iff h.two).mpr ho, rfl⟩

example : Reach cfg0 Fixed s0 ∧ CollOwner s0 1124 1 ∧ (step cfg0 s0 (.enable 1 1124)).isOk = true ∧
    errIs (step cfg0 s0 (.enable 2 1124)) "NotCollectionOwner" = true := by
  refine ⟨s0_reach, (owner_iff s0_reach.two).mp ?_, ?_, ?_⟩ <;> decide +kernel

/-- C141: NFI is never disabled, and is enabled only by the owner of the collection. -/
theorem C141_flag {c : Cfg} {G : Op → Prop} {s s' : St} (h : Reach c G s) {op : Op} (hs : step c s op = .ok s')
    {n : Nat} {g : GColl} :
    (s.enabled n g = true → s'.enabled n g = true) ∧
    (s.enabled n g = false → s'.enabled n g = true →
      ∃ who id, op = .enable who id ∧ n = s.chain ∧ g = .u32 id ∧ CollOwner s id who) := by
  have same : s'.enabled = s.enabled → (s.enabled n g = true → s'.enabled n g = true) ∧
    (s.enabled n g = false → s'.enabled n g = true →
      ∃ who id, op = .enable who id ∧ n = s.chain ∧ g = .u32 id ∧ CollOwner s id who) := by
    intro e
    rw [e]
    exact ⟨fun hx => hx, fun h1 h2 => by rw [h1] at h2; cases h2⟩
  cases op with
  | setRelayer r => cases hs; exact same rfl
  | setFeeTo r => cases hs; exact same rfl
  | setFee f =>
    simp only [Nfi.step, bind_ok, ensure_ok, pure_ok] at hs
    obtain ⟨_, _, rfl⟩ := hs
    exact same rfl
  | enable who id =>
    obtain ⟨h1, h2, h3, _⟩ := (C141_enable h).1 s' hs
    by_cases hx : n = s.chain ∧ g = .u32 id
    · obtain ⟨rfl, rfl⟩ := hx
      exact ⟨fun _ => h2, fun _ _ => ⟨who, id, rfl, rfl, rfl, h1⟩⟩
    · have := h3 n g (by
        by_cases hn : n = s.chain
        · exact Or.inr (fun hg => hx ⟨hn, hg⟩)
        · exact Or.inl hn)
      rw [this]
      exact ⟨fun hx => hx, fun h1 h2 => by rw [h1] at h2; cases h2⟩
  | manual who t =>
    simp only [Nfi.step, manual, bind_ok, pure_ok] at hs
    obtain ⟨_, _, L, _, rfl⟩ := hs
    exact same rfl
  | submit who t d =>
    simp only [Nfi.step, submit, bind_ok, ensure_ok, pure_ok] at hs
    obtain ⟨_, _, _, _, rfl⟩ := hs
    exact same rfl
  | setChain n => cases hs; exact same rfl
  | nft op =>
    obtain ⟨m, e, ⟨id, n, _, rfl⟩ | ⟨_, L, R, rfl⟩⟩ := nftStep_ok hs <;> exact same rfl
  | sft op =>
    obtain ⟨L, R, t, e, rfl⟩ := sftStep_ok hs
    exact same rfl

example : Reach cfg0 Fixed s0 ∧ s0.enabled 7668 (.u32 1124) = true ∧ s0.enabled 7668 (.u32 7) = false :=
  ⟨s0_reach, by decide +kernel, by decide +kernel⟩

/-- C141: data is written only by the relayer, and removed only when the NFT is burnt. -/
theorem C141_data {c : Cfg} {s s' : St} {op : Op} (hs : step c s op = .ok s') {t : Tid} (hne : s'.data t ≠ s.data t) :
    (∃ who d, op = .submit who t d ∧ s.relayer = some who ∧ s'.data t = some d) ∨
    ∃ o id n, op = .nft o ∧ Burns o id n ∧ t = ⟨s.chain, .u32 id, .u32 n⟩ ∧ s'.data t = none := by
  cases op with
  | setRelayer r => cases hs; exact absurd rfl hne
  | setFeeTo r => cases hs; exact absurd rfl hne
  | setFee f =>
    simp only [Nfi.step, bind_ok, ensure_ok, pure_ok] at hs
    obtain ⟨_, _, rfl⟩ := hs
    exact absurd rfl hne
  | enable who id =>
    simp only [Nfi.step, enable, bind_ok, ensure_ok, pure_ok] at hs
    obtain ⟨_, _, rfl⟩ := hs
    exact absurd rfl hne
  | manual who t =>
    simp only [Nfi.step, manual, bind_ok, pure_ok] at hs
    obtain ⟨_, _, L, _, rfl⟩ := hs
    exact absurd rfl hne
  | submit who t' d =>
    simp only [Nfi.step, submit, bind_ok, ensure_ok, pure_ok] at hs
    obtain ⟨_, h1, _, _, rfl⟩ := hs
    by_cases htt : t = t'
    · subst htt
      exact Or.inl ⟨who, d, rfl, h1, upd_same _ _ _⟩
    · exact absurd (upd_ne _ _ htt) hne
  | setChain n => cases hs; exact absurd rfl hne
  | nft op =>
    obtain ⟨m, e, ⟨id, n, hb, rfl⟩ | ⟨_, L, R, rfl⟩⟩ := nftStep_ok hs
    · by_cases htt : t = trn s id n
      · exact Or.inr ⟨op, id, n, rfl, hb, htt, by subst htt; exact upd_same _ _ _⟩
      · exact absurd (upd_ne _ _ htt) hne
    · exact absurd rfl hne
  | sft op =>
    obtain ⟨L, R, t, e, rfl⟩ := sftStep_ok hs
    exact absurd rfl hne

example : (∃ s', step cfg0 s0 (.submit 50 ⟨7668, .u32 100, .u32 0⟩ 4) = .ok s' ∧
      s'.data ⟨7668, .u32 100, .u32 0⟩ ≠ s0.data ⟨7668, .u32 100, .u32 0⟩) ∧
    errIs (step cfg0 s0 (.submit 51 ⟨7668, .u32 100, .u32 0⟩ 4)) "NotRelayer" = true := by
  refine ⟨⟨_, ok_getD (d := s0) (x := step cfg0 s0 (.submit 50 ⟨7668, .u32 100, .u32 0⟩ 4)) (by decide +kernel), ?_⟩, ?_⟩ <;>
    decide +kernel

/-- C141: the data the relayer submits is refused exactly when it is for a token of this chain that does not exist, is not
in the short form or belongs to a collection without NFI. -/
theorem C141_submit {c : Cfg} {s : St} {who : Acct} {t : Tid} {d : Nat} :
    (∃ s', step c s (.submit who t d) = .ok s') ↔
      s.relayer = some who ∧ (t.chain = s.chain →
        ∃ id n, t.coll = .u32 id ∧ t.serial = .u32 n ∧ s.enabled s.chain (.u32 id) = true ∧ Real s id n) := by
  simp only [Nfi.step, submit, bind_ok, ensure_ok, pure_ok]
  constructor
  · rintro ⟨s', _, h1, u, h2, _⟩
    refine ⟨h1, fun hc => ?_⟩
    obtain ⟨h3, id, n, h4, h5, h6⟩ := checkData_ok h2 hc
    refine ⟨id, n, h4, h5, by rw [← h4]; exact h3, real_iff.mpr ?_⟩
    rcases Bool.or_eq_true_iff.mp h6 with h6 | h6
    · exact Or.inl (lives_iff.mp h6)
    · exact Or.inr h6
  · rintro ⟨h1, h2⟩
    refine ⟨_, (), h1, (), ?_, rfl⟩
    unfold checkData
    split
    · rename_i hc
      obtain ⟨id, n, h3, h4, h5, h6⟩ := h2 hc
      have hf : format t = .ok (id, n) := by unfold format; rw [h3, h4]
      rw [hf, h3]
      simp only [bind_ok, ensure_ok]
      refine ⟨(), h5, (id, n), rfl, ?_⟩
      refine Bool.or_eq_true_iff.mpr ?_
      rcases real_iff.mp h6 with h6 | h6
      · exact Or.inl (lives_iff.mpr h6)
      · exact Or.inr h6
    · rfl

example : (step cfg0 s0 (.submit 50 ⟨7668, .u32 100, .u32 0⟩ 4)).isOk = true ∧
    errIs (step cfg0 s0 (.submit 50 ⟨7668, .u32 100, .u32 2⟩ 4)) "NoToken" = true ∧
    errIs (step cfg0 s0 (.submit 50 ⟨7668, .u32 100, .u64 0⟩ 4)) "InvalidTokenFormat" = true ∧
    (step cfg0 s0 (.submit 50 ⟨1, .u32 100, .u64 0⟩ 4)).isOk = true := by
  refine ⟨?_, ?_, ?_, ?_⟩ <;> decide +kernel

theorem permission_ok {s : St} {id n : Nat} {who : Acct} (h : checkPermissions s id n who = true) :
    (Nft.ownerOf s.nft id n = some who) ∨
    (∃ k a, s.nft.coll id = some k ∧ k.owner = who ∧ Nft.ownerOf s.nft id n = some a) ∨
    ∃ k, s.sft.coll id = some k ∧ k.owner = who := by
  have sft : sftPermission s id who = true → ∃ k, s.sft.coll id = some k ∧ k.owner = who := by
    intro hx
    unfold sftPermission at hx
    split at hx
    · rename_i k hk
      exact ⟨k, hk, (of_decide_eq_true hx).symm⟩
    · cases hx
  unfold checkPermissions at h
  split at h
  · rename_i a ha
    rcases Bool.or_eq_true_iff.mp h with h1 | h1
    · left; rw [ha, of_decide_eq_true h1]
    · split at h1
      · rename_i k hk
        exact Or.inr (Or.inl ⟨k, a, hk, (of_decide_eq_true h1).symm, ha⟩)
      · exact Or.inr (Or.inr (sft h1))
  · exact Or.inr (Or.inr (sft h))

/-- C141 (partial): a request by hand for a token of this chain comes from the owner of the token or of its collection, NFI
is enabled, and, for an NFT collection, the token exists. Missing: that an SFT exists. -/
theorem C141_request_partial {c : Cfg} {s s' : St} {who : Acct} {t : Tid} (hs : step c s (.manual who t) = .ok s')
    (hc : t.chain = s.chain) :
    ∃ id n, t.coll = .u32 id ∧ t.serial = .u32 n ∧ s.enabled s.chain (.u32 id) = true ∧
      ((Nft.ownerOf s.nft id n = some who) ∨ CollOwner s id who) ∧
      (s.sft.coll id = none → Real s id n) := by
  simp only [Nfi.step, manual, bind_ok, pure_ok] at hs
  obtain ⟨_, h1, L, _, rfl⟩ := hs
  obtain ⟨h2, id, n, h3, h4, h5⟩ := checkRequest_ok h1 hc
  refine ⟨id, n, h3, h4, by rw [← h3]; exact h2, ?_, fun hn => real_iff.mpr ?_⟩
  · rcases permission_ok h5 with h6 | ⟨k, a, h6, h7, _⟩ | h6
    · exact Or.inl h6
    · exact Or.inr (Or.inl ⟨k, h6, h7⟩)
    · exact Or.inr (Or.inr h6)
  · rcases permission_ok h5 with h6 | ⟨k, a, _, _, h6⟩ | ⟨k, h6, _⟩
    · exact Or.inl (lives_iff.mp (by rw [h6]; rfl))
    · exact Or.inl (lives_iff.mp (by rw [h6]; rfl))
    · rw [hn] at h6; cases h6

example : (step cfg0 s0 (.manual 1 ⟨7668, .u32 100, .u32 1⟩)).isOk = true ∧
    errIs (step cfg0 s0 (.manual 2 ⟨7668, .u32 100, .u32 1⟩)) "NotTokenOwner" = true ∧
    errIs (step cfg0 s0 (.manual 1 ⟨7668, .u32 100, .u32 2⟩)) "NotTokenOwner" = true := by
  refine ⟨?_, ?_, ?_⟩ <;> decide +kernel

/-- C141: the owner of an SFT collection can request, and pay for, the data of a token that does not exist. -/
theorem C141_refuted : ∃ s s' n, Reach cfg0 Fixed s ∧ step cfg0 s (.manual 1 ⟨s.chain, .u32 1124, .u32 n⟩) = .ok s' ∧
    ¬ Real s 1124 n ∧ s'.nft.ledger.bal 2 1 + 301 = s.nft.ledger.bal 2 1 := by
  refine ⟨s0, _, 77, s0_reach, ok_getD (d := s0) (x := step cfg0 s0 (.manual 1 ⟨s0.chain, .u32 1124, .u32 77⟩))
    (by decide +kernel), ?_, ?_⟩
  · rw [real_iff, ← lives_iff]
    decide +kernel
  · decide +kernel

end Verif.Nfi
