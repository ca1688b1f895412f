import Verif.Nft.Inv
import Verif.Nft.Pages

/-!
# Properties of NFT collections

`Owns o a n`: account `a` owns serial `n` of the collection with owner list `o`. `ownerOf`, `balanceOf` and
`ownedTokens` are what the chain reports.
-/

namespace Verif.Nft

/-! ## an ordinary history -/

def cfg0 : Cfg := ⟨1000000, 1000, 100, 999⟩

def g0 : St where
  coll := fun _ => none
  locks := fun _ _ => none
  flags := fun _ => ⟨true, true, true⟩
  pubMint := fun _ => ⟨false, none⟩
  nextId := 0
  approvals := fun _ _ => none
  forAll := fun _ _ _ => false
  ledger := ⟨fun _ a => if a = 7 then 5000 else 0, fun _ => 5000⟩
  minted := []

theorem genesis_g0 : Genesis g0 :=
  ⟨fun _ => rfl, rfl, fun _ _ => rfl, fun _ _ => rfl, fun _ _ _ => rfl, rfl⟩

/-- A native collection 100 of account 1 with tokens 0-4, transfers, a burn, public minting at a price, an
approval; a bridged collection 1124. -/
def demoOps : List Op :=
  [.create 1 5 (some 9) none none false, .createBridged 999 .ethereum false, .transfer 1 100 [1, 3] 2,
   .burn 1 100 0, .setPubMint 1 100 ⟨true, some (3, 10)⟩, .mint 7 100 2 none true,
   .bridgedMint 1124 4 [70, 8, 70], .approve 2 5 100 3, .setLock 1 100 2 66]

def demo : St := exec cfg0 g0 demoOps

/-- Histories that keep to `NoRepeat`, checked operation by operation. -/
def checkNoRepeat (c : Cfg) (s : St) : List Op → Bool
  | [] => true
  | op :: ops =>
    (match op with
     | .bridgedMint id _ _ => (match s.coll id with | some k => decide (k.origin ≠ .root) | none => true)
     | .transfer _ _ ns _ => decide ns.Nodup
     | _ => true) &&
    checkNoRepeat c (match step c s op with | .ok s1 => s1 | .error _ => s) ops

theorem exec_noRepeat {c : Cfg} : ∀ (ops : List Op) {s : St}, Reach c NoRepeat s → checkNoRepeat c s ops = true →
    Reach c NoRepeat (exec c s ops)
  | [], _, h, _ => h
  | op :: ops, s, h, hc => by
    unfold exec
    unfold checkNoRepeat at hc
    rw [Bool.and_eq_true] at hc
    refine exec_noRepeat ops ?_ hc.2
    cases hs : step c s op with
    | error _ => exact h
    | ok s1 =>
      refine h.step ?_ hs
      have h1 := hc.1
      cases op with
      | bridgedMint id w ns =>
        refine ⟨fun k hk => ?_, trivial⟩
        simp only [hk, decide_eq_true_eq] at h1
        exact h1
      | transfer w id ns n => exact ⟨trivial, by simpa using h1⟩
      | _ => exact ⟨trivial, trivial⟩

theorem demo_reach : Reach cfg0 NoRepeat demo :=
  exec_noRepeat demoOps (.init genesis_g0) (by decide +kernel)

/-! ## C22 -/

/-- C22: every token has one owner, who is the one reported, and the issuance is the number of tokens.
Missing: histories in which root maps an XRPL collection to a native one. -/
theorem C22_one_owner_partial {c : Cfg} {s : St} (h : Reach c Bridged s) {id : Nat} {k : Coll}
    (hk : s.coll id = some k) :
    (∀ a b n, Owns k.owned a n → Owns k.owned b n → a = b) ∧
    (∀ a n, ownerOf s id n = some a ↔ Owns k.owned a n) ∧
    (∃ S : Finset Nat, (∀ n, n ∈ S ↔ ∃ a, Owns k.owned a n) ∧ S.card = k.issuance) := by
  have hc := h.bi.coll id k hk
  refine ⟨hc.uniq, ?_, tokens k.owned, fun n => mem_tokens, hc.card⟩
  intro a n
  rw [ownerOf_some hk]
  exact getOwner_iff hc.uniq

/-- C22: the reported balance is the number of tokens owned, and balances add up to the issuance. Missing:
transfers that name the same token twice. -/
theorem C22_balances_partial {c : Cfg} {s : St} (h : Reach c NoRepeat s) {id : Nat} {k : Coll}
    (hk : s.coll id = some k) :
    (∀ a, ∃ S : Finset Nat, (∀ n, n ∈ S ↔ Owns k.owned a n) ∧ S.card = balanceOf k.owned a) ∧
    TotalIs (balanceOf k.owned) k.issuance := by
  have hn := h.ai.owners id k hk
  have hs := h.ni id k hk
  have hc := h.bridged.bi.coll id k hk
  refine ⟨balance_card hn hs, ?_⟩
  have := balance_total hn
  have hf := flat_nodup hn hc.uniq hs
  rw [← hc.card]
  unfold tokens
  rw [List.toFinset_card_of_nodup hf]
  exact this

/-- Non-vacuity: owners and balances of the native collection of the demonstration. -/
example : (demo.coll 100).map (fun k => (k.issuance, k.next, k.owned)) =
    some (6, 7, [⟨1, [2, 4]⟩, ⟨2, [1, 3]⟩, ⟨7, [5, 6]⟩]) ∧
    (demo.coll 1124).map (fun k => (k.issuance, k.owned)) = some (2, [⟨4, [8, 70]⟩]) := by decide +kernel

/-- A transfer that names token 1 twice. -/
def repeatOps : List Op := [.create 1 2 none none none false, .transfer 1 100 [1, 1] 2]

/-- C22 fails: after a transfer naming the same token twice the new owner's balance counts it twice, and the
balances do not add up to the issuance. -/
theorem C22_repeated_serial_refuted : ∃ s k, Reach cfg0 Bridged s ∧ s.coll 100 = some k ∧
    balanceOf k.owned 2 = 2 ∧ (∀ n, Owns k.owned 2 n → n = 1) ∧ ¬ TotalIs (balanceOf k.owned) k.issuance := by
  have h1 : Reach cfg0 Bridged (exec cfg0 g0 repeatOps) := by
    have e1 : step cfg0 g0 (.create 1 2 none none none false) = .ok
        ((step cfg0 g0 (.create 1 2 none none none false)).toOption.getD g0) := ok_getD (by decide +kernel)
    have r1 := (Reach.init (c := cfg0) (G := Bridged) genesis_g0).step (op := .create 1 2 none none none false) trivial e1
    have e2 : step cfg0 ((step cfg0 g0 (.create 1 2 none none none false)).toOption.getD g0)
        (.transfer 1 100 [1, 1] 2) = .ok (exec cfg0 g0 repeatOps) := by rfl
    exact r1.step (op := .transfer 1 100 [1, 1] 2) trivial e2
  obtain ⟨k, hk⟩ : ∃ k, (exec cfg0 g0 repeatOps).coll 100 = some k := Option.isSome_iff_exists.mp (by decide +kernel)
  have hkv : (exec cfg0 g0 repeatOps).coll 100 = some ⟨1, none, none, .root, 2, 2, false, [⟨1, [0]⟩, ⟨2, [1, 1]⟩]⟩ := by
    decide +kernel
  rw [hkv] at hk
  cases hk
  refine ⟨_, _, h1, hkv, by decide, ?_, ?_⟩
  · rintro n ⟨e, he, ha, hn⟩
    simp only [List.mem_cons, List.not_mem_nil, or_false] at he
    rcases he with rfl | rfl
    · simp at ha
    · simpa using hn
  · intro ht
    have hle := ht.le₂ (a := 1) (b := 2) (by decide)
    revert hle
    decide

/-- Root maps an XRPL collection to the native collection 100; token 5 is bridged in before it is minted. -/
def mappedOps : List Op :=
  [.create 1 0 none none none true, .mint 1 100 5 none true, .bridgedMint 100 2 [5], .mint 1 100 1 none true]

/-- C22 fails without restriction: two accounts own the same token. -/
theorem C22_two_owners_refuted : ∃ s k, Reach cfg0 Any s ∧ s.coll 100 = some k ∧
    Owns k.owned 1 5 ∧ Owns k.owned 2 5 := by
  have hkv : (exec cfg0 g0 mappedOps).coll 100 =
      some ⟨1, none, none, .root, 6, 7, true, [⟨1, [0, 1, 2, 3, 4, 5]⟩, ⟨2, [5]⟩]⟩ := by decide +kernel
  exact ⟨_, _, exec_reach _ (.init genesis_g0), hkv, ⟨_, List.mem_cons_self, rfl, by decide⟩,
    ⟨_, List.mem_cons_of_mem _ List.mem_cons_self, rfl, by decide⟩⟩

/-! ## C23 -/

/-- C23, native collections: the issuance never exceeds the maximum once one is set. -/
theorem C23_issuance_partial {c : Cfg} {s : St} (h : Reach c Bridged s) {id m : Nat} {k : Coll}
    (hk : s.coll id = some k) (hr : k.origin = .root) (hm : k.maxIss = some m) : k.issuance ≤ m :=
  (h.bi.coll id k hk).max hr m hm

/-- C23: a maximum once set is never changed or removed, and no mint allocates a serial at or above it. -/
theorem C23_max_final {c : Cfg} {G : St → Op → Prop} {s s' : St} (h : Reach c G s) {op : Op}
    (hs : step c s op = .ok s') {id m : Nat} {k : Coll} (hk : s.coll id = some k) (hm : k.maxIss = some m) :
    (∃ k', s'.coll id = some k' ∧ k'.maxIss = some m ∧ k'.origin = k.origin) ∧
    (∀ n, (id, n) ∈ s'.minted → (id, n) ∉ s.minted → k.origin = .root → n < m ∨ ∃ w ns, op = .bridgedMint id w ns) := by
  have e := step_eff hs
  cases e with
  | same hc hmi hn ha hl =>
    refine ⟨⟨k, by rw [hc]; exact hk, hm, rfl⟩, ?_⟩
    intro n h1 h2; rw [hmi] at h1; exact absurd h1 h2
  | @new id' k' i hid hnx hi hmx ho =>
    have hf := h.ai.fresh hid
    have hj : id ≠ id' := by rintro rfl; rw [hf] at hk; cases hk
    refine ⟨⟨k, by rw [← hk]; exact upd_ne _ _ hj, hm, rfl⟩, ?_⟩
    intro n h1 h2
    rcases List.mem_append.mp h1 with h3 | h3
    · obtain ⟨x, _, hx⟩ := List.mem_map.mp h3
      cases hx; exact absurd rfl hj
    · exact absurd h3 h2
  | @set id' k0 k' hk0 ho hg hn hi hmx =>
    refine ⟨?_, fun n h1 h2 => absurd h1 h2⟩
    by_cases hj : id = id'
    · subst hj
      rw [hk0] at hk; cases hk
      refine ⟨k', upd_same _ _ _, ?_, hg⟩
      rcases hmx with h1 | ⟨h1, _⟩
      · rw [h1]; exact hm
      · rw [h1] at hm; cases hm
    · exact ⟨k, by rw [← hk]; exact upd_ne _ _ hj, hm, rfl⟩
  | @transfer id' k0 ns cur new o auth hne hf hk0 hown hadd =>
    refine ⟨?_, fun n h1 h2 => absurd h1 h2⟩
    by_cases hj : id = id'
    · subst hj
      rw [hk0] at hk; cases hk
      exact ⟨_, upd_same _ _ _, hm, rfl⟩
    · exact ⟨k, by rw [← hk]; exact upd_ne _ _ hj, hm, rfl⟩
  | @burn id' k0 n who auth hlk hf hk0 hown =>
    refine ⟨?_, fun n h1 h2 => absurd h1 h2⟩
    by_cases hj : id = id'
    · subst hj
      rw [hk0] at hk; cases hk
      exact ⟨_, upd_same _ _ _, hm, rfl⟩
    · exact ⟨k, by rw [← hk]; exact upd_ne _ _ hj, hm, rfl⟩
  | @mint who id' q rcv ext k0 o L hop hf hk0 hq hlim hauth horig hu hcap hmax hfee hadd =>
    by_cases hj : id = id'
    · subst hj
      rw [hk0] at hk; cases hk
      refine ⟨⟨_, upd_same _ _ _, hm, rfl⟩, ?_⟩
      intro n h1 h2 _
      rcases List.mem_append.mp h1 with h3 | h3
      · obtain ⟨x, hx1, hx⟩ := List.mem_map.mp h3
        cases hx
        rw [List.mem_range'_1] at hx1
        have := hmax m hm
        left; omega
      · exact absurd h3 h2
    · refine ⟨⟨k, by rw [← hk]; exact upd_ne _ _ hj, hm, rfl⟩, ?_⟩
      intro n h1 h2
      rcases List.mem_append.mp h1 with h3 | h3
      · obtain ⟨x, _, hx⟩ := List.mem_map.mp h3
        cases hx; exact absurd rfl hj
      · exact absurd h3 h2
  | @bridged id' k0 o who ns hop hk0 hadd =>
    by_cases hj : id = id'
    · subst hj
      rw [hk0] at hk; cases hk
      exact ⟨⟨_, upd_same _ _ _, hm, rfl⟩, fun n _ _ _ => Or.inr ⟨who, ns, hop⟩⟩
    · refine ⟨⟨k, by rw [← hk]; exact upd_ne _ _ hj, hm, rfl⟩, ?_⟩
      intro n h1 h2
      rcases List.mem_append.mp h1 with h3 | h3
      · obtain ⟨x, _, hx⟩ := List.mem_map.mp h3
        cases hx; exact absurd rfl hj
      · exact absurd h3 h2

/-- Non-vacuity: the native collection of the demonstration has maximum 9; two more tokens can be minted,
a third cannot. -/
example : (demo.coll 100).map (fun k => (k.origin, k.maxIss)) = some (.root, some 9) ∧
    (step cfg0 demo (.mint 1 100 2 none true)).isOk = true ∧
    errIs (step cfg0 demo (.mint 1 100 3 none true)) "MaxIssuanceReached" = true := by decide +kernel

/-- A bridged collection is claimed, gets a maximum of 1, and two tokens come over the bridge. -/
def cappedBridgeOps : List Op :=
  [.createBridged 999 .ethereum false, .claimUnowned 100 1, .setMaxIssuance 1 100 1, .bridgedMint 100 4 [8, 9]]

/-- C23 fails for bridged collections: the bridge ignores the maximum. -/
theorem C23_bridged_refuted : ∃ s k, Reach cfg0 NoRepeat s ∧ s.coll 100 = some k ∧ k.maxIss = some 1 ∧
    k.issuance = 2 := by
  have hr := exec_noRepeat (c := cfg0) cappedBridgeOps (.init genesis_g0) (by decide +kernel)
  have hkv : (exec cfg0 g0 cappedBridgeOps).coll 100 =
      some ⟨1, none, some 1, .ethereum, 0, 2, false, [⟨4, [8, 9]⟩]⟩ := by decide +kernel
  exact ⟨_, _, hr, hkv, rfl, rfl⟩

/-! ## C24 -/

/-- C24: a successful mint hands out consecutive serials to the receiver; none of them existed or was ever
minted before. -/
theorem C24_fresh {c : Cfg} {s s' : St} (h : Reach c Bridged s) {who : Acct} {id q : Nat} {rcv : Option Acct}
    {ext : Bool} (hs : step c s (.mint who id q rcv ext) = .ok s') :
    ∃ k k', s.coll id = some k ∧ s'.coll id = some k' ∧ k'.next = k.next + q ∧ k'.issuance = k.issuance + q ∧
      (∀ n, k.next ≤ n → n < k.next + q →
        (id, n) ∉ s.minted ∧ ownerOf s id n = none ∧ ownerOf s' id n = some (rcv.getD who)) ∧
      (∀ n, n < k.next ∨ k.next + q ≤ n → ownerOf s' id n = ownerOf s id n) := by
  have e := step_eff hs
  have hs0 := hs
  simp only [step, mint, preMint, doMint, bind_ok, ensure_ok, okOr_ok, pure_ok] at hs
  obtain ⟨_, hl, _, hf, k, hk, ns, ⟨_, hq, _, ha, _, _, _, hr, _, hu, _, hc, _, hm, rfl⟩, L, hL, s1,
    ⟨_, _, _, _, o, ho, rfl⟩, _, _, rfl⟩ := hs
  have hci := h.bi.coll id k hk
  have hci' := hci.mint hr hm ho
  have hown := addUser_owns ho
  have hg : ∀ n, getOwner o n = some (rcv.getD who) ↔ Owns o (rcv.getD who) n := fun n => getOwner_iff hci'.uniq
  refine ⟨k, _, hk, upd_same _ _ _, rfl, by simp, ?_, ?_⟩
  · intro n h1 h2
    refine ⟨?_, ?_, ?_⟩
    · intro hmem
      obtain ⟨k2, hk2, hb⟩ := h.bi.minted id n hmem
      rw [hk] at hk2; cases hk2
      have := hb hr; omega
    · rw [ownerOf_some hk, getOwner_none]
      intro a hoa
      have := hci.below hr a n hoa; omega
    · have := (hg n).mpr ((hown _ n).mpr (Or.inr ⟨rfl, by rw [List.mem_range'_1]; omega⟩))
      rw [ownerOf_some (upd_same _ _ _)]
      exact this
  · intro n hn
    rw [ownerOf_some hk, ownerOf_some (upd_same _ _ _)]
    have hiff : ∀ a, Owns o a n ↔ Owns k.owned a n := by
      intro a
      rw [hown a n]
      constructor
      · rintro (h1 | ⟨_, h1⟩)
        · exact h1
        · rw [List.mem_range'_1] at h1; omega
      · exact Or.inl
    change getOwner o n = getOwner k.owned n
    cases hx : getOwner k.owned n with
    | none => rw [getOwner_none] at hx ⊢; intro a hoa; exact hx a ((hiff a).mp hoa)
    | some a => exact (getOwner_iff hci'.uniq).mpr ((hiff a).mpr (getOwner_owns hx))

theorem count_le_one {α : Type} [BEq α] [LawfulBEq α] {x : α} : ∀ {l : List α},
    l.Pairwise (fun p q => p = q → p ≠ x) → l.count x ≤ 1
  | [], _ => by simp
  | y :: l, h => by
    rw [List.pairwise_cons] at h
    rw [List.count_cons]
    by_cases hy : y = x
    · subst hy
      have : l.count y = 0 := List.count_eq_zero.mpr (fun hm => h.1 y hm rfl rfl)
      simp [this]
    · have := count_le_one (x := x) h.2
      simp [hy, this]

/-- C24: no token of a native collection is ever minted twice, and every token was minted. -/
theorem C24_minted_once {c : Cfg} {s : St} (h : Reach c Bridged s) {id : Nat} {k : Coll}
    (hk : s.coll id = some k) (hr : k.origin = .root) (n : Nat) :
    s.minted.count (id, n) ≤ 1 ∧ (∀ a, Owns k.owned a n → s.minted.count (id, n) = 1) := by
  have h1 : s.minted.count (id, n) ≤ 1 := by
    refine count_le_one (h.bi.once.imp ?_)
    intro p q hpq he hx
    subst hx
    exact hpq he k hk hr
  refine ⟨h1, fun a ha => ?_⟩
  have := List.count_pos_iff.mpr (h.bi.born id k a n hk ha)
  omega

/-- Non-vacuity: account 7 mints tokens 5 and 6 at 10 each; token 0 has been burnt and is not reused. -/
example : demo.minted.take 4 = [(1124, 8), (1124, 70), (100, 5), (100, 6)] ∧ ownerOf demo 100 0 = none ∧
    ownerOf demo 100 6 = some 7 ∧ demo.ledger.bal 3 7 = 4980 ∧ demo.ledger.bal 3 1 = 20 := by decide +kernel

/-! ## C25 -/

/-- C25: a transfer, in any history, needs every named token to be owned by the account it is made from and
unlocked; afterwards the new owner owns them, the old one does not, and nothing else changes hands. -/
theorem C25_transfer {c : Cfg} {G : St → Op → Prop} {s s' : St} (h : Reach c G s) {id : Nat} {ns : List Nat}
    {cur new : Acct} (hs : step c s (.transfer cur id ns new) = .ok s') :
    ∃ k k', s.coll id = some k ∧ s'.coll id = some k' ∧
      (∀ n ∈ ns, Owns k.owned cur n ∧ s.locks id n = none ∧ Owns k'.owned new n ∧ ¬ Owns k'.owned cur n) ∧
      (∀ n, n ∉ ns → ∀ a, Owns k'.owned a n ↔ Owns k.owned a n) ∧ k'.issuance = k.issuance ∧
      (∀ j, j ≠ id → s'.coll j = s.coll j) := by
  simp only [step, doTransfer, bind_ok, ensure_ok, okOr_ok, pure_ok] at hs
  obtain ⟨_, _, _, hne, _, hf, k, hk, _, hown, o, ho, rfl⟩ := hs
  have ht := transfer_owns (h.ai.owners id k hk) ho
  refine ⟨k, _, hk, upd_same _ _ _, ?_, ?_, rfl, fun j hj => upd_ne _ _ hj⟩
  · intro n hn
    refine ⟨isTokenOwner_iff.mp (hown n hn).1, (hown n hn).2, (ht new n).mpr (Or.inr ⟨rfl, hn⟩), ?_⟩
    intro hc
    rcases (ht cur n).mp hc with h1 | h1
    · exact h1.2 ⟨rfl, hn⟩
    · exact hne h1.1
  · intro n hn a
    rw [ht a n]
    constructor
    · rintro (h1 | h1)
      · exact h1.1
      · exact absurd h1.2 hn
    · intro h1; exact Or.inl ⟨h1, fun hc => hn hc.2⟩

/-- C25: a burn, in any history, needs the token to be owned by the account it is made from and unlocked;
no other token is affected. -/
theorem C25_burn {c : Cfg} {s s' : St} {id n : Nat} {who : Acct} (hs : step c s (.burn who id n) = .ok s') :
    ∃ k k', s.coll id = some k ∧ s'.coll id = some k' ∧ Owns k.owned who n ∧ s.locks id n = none ∧
      ¬ Owns k'.owned who n ∧ (∀ m a, m ≠ n → (Owns k'.owned a m ↔ Owns k.owned a m)) ∧
      (∀ j, j ≠ id → s'.coll j = s.coll j) := by
  simp only [step, doBurn, bind_ok, ensure_ok, okOr_ok, pure_ok] at hs
  obtain ⟨_, hl, _, hf, k, hk, _, ho, rfl⟩ := hs
  refine ⟨k, _, hk, upd_same _ _ _, isTokenOwner_iff.mp ho, hl, ?_, ?_, fun j hj => upd_ne _ _ hj⟩
  · intro hc; exact ((burnFrom_owns _ _).mp hc).2 ⟨rfl, rfl⟩
  · intro m a hm
    change Owns (burnFrom k.owned who n) a m ↔ _
    rw [burnFrom_owns]
    constructor
    · exact fun h => h.1
    · exact fun h => ⟨h, fun hc => hm hc.2⟩

theorem getOwner_congr {o o' : List Own} {n : Nat} (hu : ∀ a b n, Owns o' a n → Owns o' b n → a = b)
    (h : ∀ a, Owns o a n → Owns o' a n) {a : Acct} (hg : getOwner o n = some a) : getOwner o' n = some a :=
  (getOwner_iff hu).mpr (h a (getOwner_owns hg))

/-- C25: the owner of a token changes only by a transfer or a burn made by the owner, or through the ERC-721
contract by somebody the owner allowed, and only if the token is not locked. -/
theorem C25_only_owner_moves {c : Cfg} {s s' : St} (h : Reach c Bridged s) {op : Op} (hG : Bridged s op)
    (hs : step c s op = .ok s') {id n : Nat} {a : Acct} (ho : ownerOf s id n = some a)
    (ho' : ownerOf s' id n ≠ some a) :
    s.locks id n = none ∧
    ((∃ ns new, op = .transfer a id ns new ∧ n ∈ ns) ∨ op = .burn a id n ∨
     (∃ caller, isApprovedOrOwner s id n caller = true ∧
        ((∃ new, op = .transferFrom caller id n a new) ∨ op = .burnPrecompile caller id n))) := by
  have hr' := h.step hG hs
  have hbi' := hr'.bi
  obtain ⟨k, b, hk, hb⟩ := ownerOf_exists.mp ⟨a, ho⟩
  have hci := h.bi.coll id k hk
  have hoa : Owns k.owned a n := by rw [ownerOf_some hk] at ho; exact getOwner_owns ho
  -- it is enough that the account still owns the token
  have keep : ∀ k', s'.coll id = some k' → Owns k'.owned a n → False := by
    intro k' hk' hx
    apply ho'
    rw [ownerOf_some hk']
    exact (getOwner_iff (hbi'.coll id k' hk').uniq).mpr hx
  have e := step_eff hs
  cases e with
  | same hc hmi hn ha hl => exact absurd (by rw [ownerOf_congr hc]; exact ho) ho'
  | @new id' k' i hid hnx hi hmx hox =>
    have hf := h.ai.fresh hid
    have hj : id ≠ id' := by rintro rfl; rw [hf] at hk; cases hk
    exact (keep k (by rw [← hk]; exact upd_ne _ _ hj) hoa).elim
  | @set id' k0 k' hk0 hox hg hn hi hmx =>
    by_cases hj : id = id'
    · subst hj
      rw [hk0] at hk; cases hk
      exact (keep k' (upd_same _ _ _) (by rw [hox]; exact hoa)).elim
    · exact (keep k (by rw [← hk]; exact upd_ne _ _ hj) hoa).elim
  | @transfer id' k0 ns cur new o auth hne hf hk0 hown hadd =>
    by_cases hj : id = id'
    · subst hj
      rw [hk0] at hk; cases hk
      have ht := transfer_owns (h.ai.owners id k hk0) hadd
      by_cases hac : a = cur ∧ n ∈ ns
      · obtain ⟨rfl, hn⟩ := hac
        refine ⟨(hown n hn).2, ?_⟩
        rcases auth with rfl | ⟨caller, m, rfl, rfl, hau⟩
        · exact Or.inl ⟨ns, new, rfl, hn⟩
        · rw [List.mem_singleton] at hn
          subst hn
          exact Or.inr (Or.inr ⟨caller, hau, Or.inl ⟨new, rfl⟩⟩)
      · exact (keep _ (upd_same _ _ _) ((ht a n).mpr (Or.inl ⟨hoa, hac⟩))).elim
    · exact (keep k (by rw [← hk]; exact upd_ne _ _ hj) hoa).elim
  | @burn id' k0 m who auth hlk hf hk0 hown =>
    by_cases hj : id = id'
    · subst hj
      rw [hk0] at hk; cases hk
      by_cases hac : a = who ∧ n = m
      · obtain ⟨rfl, rfl⟩ := hac
        refine ⟨hlk, ?_⟩
        rcases auth with rfl | ⟨caller, rfl, hau, _⟩
        · exact Or.inr (Or.inl rfl)
        · exact Or.inr (Or.inr ⟨caller, hau, Or.inr rfl⟩)
      · exact (keep _ (upd_same _ _ _) ((burnFrom_owns a n).mpr ⟨hoa, hac⟩)).elim
    · exact (keep k (by rw [← hk]; exact upd_ne _ _ hj) hoa).elim
  | @mint who id' q rcv ext k0 o L hop hf hk0 hq hlim hauth horig hu hcap hmax hfee hadd =>
    by_cases hj : id = id'
    · subst hj
      rw [hk0] at hk; cases hk
      exact (keep _ (upd_same _ _ _) ((addUser_owns hadd a n).mpr (Or.inl hoa))).elim
    · exact (keep k (by rw [← hk]; exact upd_ne _ _ hj) hoa).elim
  | @bridged id' k0 o who ns hop hk0 hadd =>
    by_cases hj : id = id'
    · subst hj
      rw [hk0] at hk; cases hk
      exact (keep _ (upd_same _ _ _) ((addUser_owns hadd a n).mpr (Or.inl hoa))).elim
    · exact (keep k (by rw [← hk]; exact upd_ne _ _ hj) hoa).elim

/-- Non-vacuity: account 1 can transfer token 4, not the locked token 2 and not token 1 of account 2; the
account approved for token 3 can. -/
example : (step cfg0 demo (.transfer 1 100 [4] 3)).isOk = true ∧ (step cfg0 demo (.transfer 1 100 [2] 3)).isOk = false ∧
    (step cfg0 demo (.transfer 1 100 [1] 3)).isOk = false ∧ (step cfg0 demo (.transferFrom 5 100 3 2 8)).isOk = true ∧
    (step cfg0 demo (.transferFrom 5 100 1 2 8)).isOk = false := by decide +kernel

/-! ## C26 -/

/-- C26: reading page by page ends, and whatever is read is the list of owned serials in increasing order,
each once; every page reports the number of tokens owned. -/
theorem C26_pages {c : Cfg} {s : St} (h : Reach c NoRepeat s) {id : Nat} {k : Coll} (hk : s.coll id = some k)
    {who : Acct} (hb : ∀ n, Owns k.owned who n → n < U32) {limit : Nat} (hl : 1 ≤ limit) :
    (∃ l, Reads k.owned who limit 0 l) ∧
    (∀ l, Reads k.owned who limit 0 l → l.Pairwise (· < ·) ∧ (∀ n, n ∈ l ↔ Owns k.owned who n) ∧
      (∀ cur, (ownedTokens k.owned who cur limit).2.1 = l.length)) := by
  have hno := h.ai.owners id k hk
  have hst := sortedOwned_strict (h.ni id k hk) who
  have hbs : ∀ n ∈ sortedOwned k.owned who, n < U32 := fun n hn => hb n ((mem_sortedOwned hno).mp hn)
  refine ⟨reads_ends hl hst hbs _ 0 (le_refl _), ?_⟩
  intro l hlr
  have e := reads_spec hl hst hbs hlr
  have e2 : (sortedOwned k.owned who).filter (fun n => decide (0 ≤ n)) = sortedOwned k.owned who :=
    List.filter_eq_self.mpr (fun n _ => by simp)
  rw [e2] at e
  subst e
  exact ⟨hst, fun n => mem_sortedOwned hno, fun cur => rfl⟩

/-- Non-vacuity: five tokens read two at a time. -/
example : ownedTokens [⟨1, [2, 4, 5, 9, 11]⟩] 1 0 2 = (5, 5, [2, 4]) ∧
    ownedTokens [⟨1, [2, 4, 5, 9, 11]⟩] 1 5 2 = (10, 5, [5, 9]) ∧
    ownedTokens [⟨1, [2, 4, 5, 9, 11]⟩] 1 10 2 = (0, 5, [11]) := by decide +kernel

/-! ## C27 -/

/-- C27: ids made from different counters or different chains differ. (`u32::MAX` itself, where the check
wraps, is never reached: see below.) -/
theorem C27_ids_distinct {i j p q x y : Nat} (h1 : nextAssetUuid i p = some x) (h2 : nextAssetUuid j q = some y)
    (hi : i < U32 - 1) (hj : j < U32 - 1) (hne : i ≠ j ∨ p ≠ q) : x ≠ y ∧ x < U32 := by
  constructor
  · rintro rfl
    have := uuid_inj h1 h2 hi hj
    omega
  · unfold nextAssetUuid at h1
    split at h1
    · cases h1
    · rename_i hx
      simp only [not_or, not_lt] at hx
      cases h1
      have hm : (i + 1) % U32 = i + 1 := Nat.mod_eq_of_lt (by omega)
      have := Nat.shiftLeft_add_eq_or_of_lt (a := i) (b := p) (i := 10) (by omega)
      rw [← this, Nat.shiftLeft_eq]
      unfold U32
      omega

/-- C27: a new collection never takes the id of an existing one, the counter stays below its limit, and at
the limit creation fails. -/
theorem C27_new_id {c : Cfg} {G : St → Op → Prop} {s : St} (h : Reach c G s) :
    s.nextId ≤ 4194303 ∧
    (∀ id, nextAssetUuid s.nextId c.chainId = some id → s.coll id = none) ∧
    (s.nextId = 4194303 → ∀ o i m t r x, (step c s (.create o i m t r x)).isOk = false ∧
      (step c s .takeUuid).isOk = false) := by
  refine ⟨h.ai.small, fun id hid => h.ai.fresh hid, ?_⟩
  intro hn o i m t r x
  have : nextAssetUuid s.nextId c.chainId = none := by
    unfold nextAssetUuid
    rw [hn, if_pos (Or.inl (by decide))]
  constructor
  · cases hx : step c s (.create o i m t r x) with
    | error _ => rfl
    | ok s' =>
      simp only [step, doCreate, nextUuid, bind_ok, okOr_ok, this] at hx
      obtain ⟨_, h1, _⟩ := hx
      cases h1
  · cases hx : step c s .takeUuid with
    | error _ => rfl
    | ok s' =>
      simp only [step, takeUuid, nextUuid, bind_ok, okOr_ok, this] at hx
      obtain ⟨_, h1, _⟩ := hx
      cases h1

/-- Non-vacuity: the first two collections of chain 100. -/
example : nextAssetUuid 0 100 = some 100 ∧ nextAssetUuid 1 100 = some 1124 ∧ nextAssetUuid 4194302 100 = some 4294965348 ∧
    nextAssetUuid 4194303 100 = none := by decide +kernel

end Verif.Nft
