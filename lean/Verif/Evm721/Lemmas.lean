import Verif.Evm721.Spec
import Verif.Nft.Rights

/-!
# What the operations of the pallet do to the contract of a collection
-/

namespace Verif.Evm721

open Nft (Cfg St Coll Own Owns Reach Bridged NoRepeat PubMint ownerOf getOwner ownerOf_some getOwner_iff getOwner_none
  getOwner_owns isTokenOwner_iff CI)

theorem Tok.ext' {t u : Tok} (h1 : ∀ n, t.owner n = u.owner n) (h2 : ∀ n, t.approved n = u.approved n)
    (h3 : ∀ a b, t.operator a b = u.operator a b) (h4 : t.boss = u.boss) (h5 : t.supply = u.supply)
    (h6 : t.cap = u.cap) (h7 : t.pub = u.pub) (h8 : t.price = u.price) : t = u := by
  obtain ⟨a1, a2, a3, a4, a5, a6, a7, a8⟩ := t
  obtain ⟨b1, b2, b3, b4, b5, b6, b7, b8⟩ := u
  simp only at h1 h2 h3 h4 h5 h6 h7 h8
  have e1 : a1 = b1 := funext h1
  have e2 : a2 = b2 := funext h2
  have e3 : a3 = b3 := funext (fun a => funext (h3 a))
  subst e1 e2 e3 h4 h5 h6 h7 h8
  rfl

/-- Nothing about a collection changes. -/
theorem abs_congr {s s' : St} {j : Nat} (h1 : s'.coll j = s.coll j) (h2 : ∀ n, s'.approvals j n = s.approvals j n)
    (h3 : ∀ a b, s'.forAll a j b = s.forAll a j b) (h4 : s'.pubMint j = s.pubMint j) : abs s' j = abs s j := by
  refine Tok.ext' ?_ ?_ h3 ?_ ?_ ?_ ?_ ?_
  · intro n; show ownerOf s' j n = ownerOf s j n; unfold ownerOf; rw [h1]
  · intro n; show (s'.approvals j n).getD 0 = (s.approvals j n).getD 0; rw [h2]
  · show ((s'.coll j).map Coll.owner).getD 0 = ((s.coll j).map Coll.owner).getD 0; rw [h1]
  · show ((s'.coll j).map Coll.issuance).getD 0 = ((s.coll j).map Coll.issuance).getD 0; rw [h1]
  · show (s'.coll j).bind Coll.maxIss = (s.coll j).bind Coll.maxIss; rw [h1]
  · show (s'.pubMint j).enabled = (s.pubMint j).enabled; rw [h4]
  · show (s'.pubMint j).price = (s.pubMint j).price; rw [h4]

/-- The fields of a contract whose collection has record `k`. -/
theorem abs_boss {s : St} {id : Nat} {k : Coll} (hk : s.coll id = some k) : (abs s id).boss = k.owner := by
  show ((s.coll id).map Coll.owner).getD 0 = _; rw [hk]; rfl

theorem abs_supply {s : St} {id : Nat} {k : Coll} (hk : s.coll id = some k) : (abs s id).supply = k.issuance := by
  show ((s.coll id).map Coll.issuance).getD 0 = _; rw [hk]; rfl

theorem abs_cap {s : St} {id : Nat} {k : Coll} (hk : s.coll id = some k) : (abs s id).cap = k.maxIss := by
  show (s.coll id).bind Coll.maxIss = _; rw [hk]; rfl

/-- The owner of a token is determined by who owns it. -/
theorem getOwner_ext {o o' : List Own} {n : Nat} (hu : ∀ a b n, Owns o a n → Owns o b n → a = b)
    (hu' : ∀ a b n, Owns o' a n → Owns o' b n → a = b) (h : ∀ a, Owns o' a n ↔ Owns o a n) :
    getOwner o' n = getOwner o n := by
  cases hx : getOwner o n with
  | none => rw [getOwner_none] at hx ⊢; intro a ha; exact hx a ((h a).mp ha)
  | some a => exact (getOwner_iff hu').mpr ((h a).mpr (getOwner_owns hx))

/-- Who may move a token. -/
theorem may_of {s : St} {id n : Nat} {caller a : Acct} (ho : ownerOf s id n = some a)
    (h : Nft.isApprovedOrOwner s id n caller = true) : May (abs s id) caller a n := by
  unfold Nft.isApprovedOrOwner at h
  rw [ho] at h
  simp only [Option.some.injEq, Bool.or_eq_true, decide_eq_true_eq] at h
  rcases h with (h2 | h2) | h2
  · exact Or.inl h2.symm
  · exact Or.inr (Or.inl h2)
  · refine Or.inr (Or.inr ?_)
    show (s.approvals id n).getD 0 = caller
    rw [h2]; rfl

/-- A transfer of one token. -/
theorem transfer_abs {c : Cfg} {s s' : St} (h : Reach c Bridged s) {id n : Nat} {src dst : Acct}
    (hs : Nft.doTransfer c s id [n] src dst = .ok s') :
    ownerOf s id n = some src ∧
    abs s' id = { abs s id with
      owner := put (abs s id).owner n (some dst)
      approved := put (abs s id).approved n 0 } ∧
    (∀ j, j ≠ id → abs s' j = abs s j) := by
  have hr' : Reach c Bridged s' := h.step (op := .transfer src id [n] dst) trivial hs
  simp only [Nft.doTransfer, bind_ok, ensure_ok, okOr_ok, pure_ok] at hs
  obtain ⟨_, _, _, hne, _, hf, k, hk, _, hown, o, ho, rfl⟩ := hs
  have hon : Owns k.owned src n := isTokenOwner_iff.mp (hown n List.mem_cons_self).1
  have hci := h.bi.coll id k hk
  have h1 : ownerOf s id n = some src := by rw [ownerOf_some hk]; exact (getOwner_iff hci.uniq).mpr hon
  have hk' : (Nft.clearApprovals (Nft.setColl s id { k with owned := o }) id [n]).coll id = some { k with owned := o } :=
    upd_same _ _ _
  have hu' := (hr'.bi.coll id _ hk').uniq
  have ht := Nft.transfer_owns (h.ai.owners id k hk) ho
  refine ⟨h1, Tok.ext' ?_ ?_ (fun _ _ => rfl) ?_ ?_ ?_ rfl rfl, ?_⟩
  · intro m
    show ownerOf _ id m = put (ownerOf s id) n (some dst) m
    rw [ownerOf_some hk']
    unfold put
    split
    · rename_i hm
      subst hm
      exact (getOwner_iff hu').mpr ((ht dst m).mpr (Or.inr ⟨rfl, List.mem_cons_self⟩))
    · rename_i hm
      rw [ownerOf_some hk]
      refine getOwner_ext hci.uniq hu' (fun a => ?_)
      rw [ht a m]
      simp [hm]
  · intro m
    show (if id = id ∧ m ∈ [n] then none else s.approvals id m).getD 0 = put (abs s id).approved n 0 m
    unfold put
    by_cases hm : m = n
    · simp [hm]
    · simp only [hm, List.mem_singleton, and_false, if_false]; rfl
  · rw [abs_boss hk']; exact (abs_boss hk).symm
  · rw [abs_supply hk']; exact (abs_supply hk).symm
  · rw [abs_cap hk']; exact (abs_cap hk).symm
  · intro j hj
    refine abs_congr (upd_ne _ _ hj) (fun m => ?_) (fun _ _ => rfl) rfl
    show (if j = id ∧ m ∈ [n] then none else s.approvals j m) = s.approvals j m
    rw [if_neg (fun hc => hj hc.1)]

/-- A burn. -/
theorem burn_abs {c : Cfg} {s s' : St} (h : Reach c Bridged s) {id n : Nat} {a : Acct}
    (hs : Nft.doBurn s a id n = .ok s') :
    ownerOf s id n = some a ∧ 1 ≤ (abs s id).supply ∧
    abs s' id = { abs s id with
      owner := put (abs s id).owner n none
      approved := put (abs s id).approved n 0
      supply := (abs s id).supply - 1 } ∧
    (∀ j, j ≠ id → abs s' j = abs s j) := by
  have hr' : Reach c Bridged s' := h.step (op := .burn a id n) trivial hs
  simp only [Nft.doBurn, bind_ok, ensure_ok, okOr_ok, pure_ok] at hs
  obtain ⟨_, hl, _, hf, k, hk, _, hown, rfl⟩ := hs
  have hon : Owns k.owned a n := isTokenOwner_iff.mp hown
  have hci := h.bi.coll id k hk
  have h1 : ownerOf s id n = some a := by rw [ownerOf_some hk]; exact (getOwner_iff hci.uniq).mpr hon
  have hk' : (Nft.clearApprovals (Nft.setColl s id { k with
      issuance := k.issuance - 1
      owned := Nft.burnFrom k.owned a n }) id [n]).coll id = some { k with
      issuance := k.issuance - 1
      owned := Nft.burnFrom k.owned a n } := upd_same _ _ _
  have hu' := (hr'.bi.coll id _ hk').uniq
  refine ⟨h1, ?_, Tok.ext' ?_ ?_ (fun _ _ => rfl) ?_ ?_ ?_ rfl rfl, ?_⟩
  · rw [abs_supply hk, ← hci.card]
    exact Finset.card_pos.mpr ⟨n, Nft.mem_tokens.mpr ⟨a, hon⟩⟩
  · intro m
    show ownerOf _ id m = put (ownerOf s id) n none m
    rw [ownerOf_some hk']
    unfold put
    split
    · rename_i hm
      subst hm
      rw [getOwner_none]
      intro b hb
      have := (Nft.burnFrom_owns b m).mp hb
      exact this.2 ⟨hci.uniq b a m this.1 hon, rfl⟩
    · rename_i hm
      rw [ownerOf_some hk]
      refine getOwner_ext hci.uniq hu' (fun b => ?_)
      show Owns (Nft.burnFrom k.owned a n) b m ↔ _
      rw [Nft.burnFrom_owns b m]
      simp [hm]
  · intro m
    show (if id = id ∧ m ∈ [n] then none else s.approvals id m).getD 0 = put (abs s id).approved n 0 m
    unfold put
    by_cases hm : m = n
    · simp [hm]
    · simp only [hm, List.mem_singleton, and_false, if_false]; rfl
  · rw [abs_boss hk']; exact (abs_boss hk).symm
  · rw [abs_supply hk']
    show k.issuance - 1 = (abs s id).supply - 1
    rw [abs_supply hk]
  · rw [abs_cap hk']; exact (abs_cap hk).symm
  · intro j hj
    refine abs_congr (upd_ne _ _ hj) (fun m => ?_) (fun _ _ => rfl) rfl
    show (if j = id ∧ m ∈ [n] then none else s.approvals j m) = s.approvals j m
    rw [if_neg (fun hc => hj hc.1)]

/-- A mint. -/
theorem mint_abs {c : Cfg} {s s' : St} (h : Reach c Bridged s) {id q : Nat} {who dst : Acct} {ext : Bool} {k : Coll}
    (hk : s.coll id = some k) (hs : Nft.mint c s who id q (some dst) ext = .ok s') :
    (who = k.owner ∨ (s.pubMint id).enabled = true) ∧ 0 < q ∧ k.next + q < U32 ∧
    (∀ n, k.next ≤ n → n < k.next + q → ownerOf s id n = none) ∧
    (∀ x, (abs s id).cap = some x → (abs s id).supply + q ≤ x) ∧
    abs s' id = { abs s id with
      owner := fun n => if k.next ≤ n ∧ n < k.next + q then some dst else (abs s id).owner n
      supply := (abs s id).supply + q } ∧
    (∀ j, j ≠ id → abs s' j = abs s j) := by
  obtain ⟨k0, k', hk0, hk', _, hi, hnew, hold⟩ := Nft.C24_fresh h (who := who) (id := id) (q := q) (rcv := some dst)
    (ext := ext) hs
  rw [hk] at hk0; cases hk0
  have hs0 := hs
  simp only [Nft.mint, Nft.preMint, Nft.doMint, bind_ok, ensure_ok, okOr_ok, pure_ok] at hs
  obtain ⟨_, hl, _, hf, k2, hk2, ns, ⟨_, hq, _, ha, _, _, _, hr, _, hu, _, hc, _, hm, rfl⟩, L, hL, s1,
    ⟨_, _, _, _, o, ho, rfl⟩, _, _, rfl⟩ := hs
  rw [hk] at hk2; cases hk2
  refine ⟨?_, hq, hu, fun n h1 h2 => (hnew n h1 h2).2.1, ?_, Tok.ext' ?_ (fun _ => rfl) (fun _ _ => rfl) ?_ ?_ ?_ rfl rfl, ?_⟩
  · rcases ha with h1 | h1
    · exact Or.inl h1.symm
    · exact Or.inr h1
  · intro x hx
    rw [abs_cap hk] at hx
    rw [abs_supply hk]
    have h1 := hm x hx
    have h2 := Nft.card_le_next (h.bi.coll id k hk) hr
    omega
  · intro n
    show ownerOf _ id n = if k.next ≤ n ∧ n < k.next + q then some dst else ownerOf s id n
    split
    · rename_i hn; exact (hnew n hn.1 hn.2).2.2
    · rename_i hn; exact hold n (by omega)
  · rw [abs_boss (upd_same _ _ _)]; exact (abs_boss hk).symm
  · rw [abs_supply hk', hi]
    show _ = (abs s id).supply + q
    rw [abs_supply hk]
  · rw [abs_cap (upd_same _ _ _)]; exact (abs_cap hk).symm
  · intro j hj
    exact abs_congr (upd_ne _ _ hj) (fun _ => rfl) (fun _ _ => rfl) rfl

/-- A setting of the collection. -/
theorem set_abs {s : St} {id : Nat} {k k' : Coll} (hk : s.coll id = some k) (ho : k'.owned = k.owned)
    (hi : k'.issuance = k.issuance) :
    abs (Nft.setColl s id k') id = { abs s id with
      boss := k'.owner
      cap := k'.maxIss } ∧
    (∀ j, j ≠ id → abs (Nft.setColl s id k') j = abs s j) := by
  have hk' : (Nft.setColl s id k').coll id = some k' := upd_same _ _ _
  refine ⟨Tok.ext' ?_ (fun _ => rfl) (fun _ _ => rfl) (abs_boss hk') ?_ (abs_cap hk') rfl rfl, ?_⟩
  · intro n
    show ownerOf _ id n = ownerOf s id n
    rw [ownerOf_some hk', ownerOf_some hk, ho]
  · rw [abs_supply hk', hi]; exact (abs_supply hk).symm
  · intro j hj
    exact abs_congr (upd_ne _ _ hj) (fun _ => rfl) (fun _ _ => rfl) rfl

/-- The rules of public minting. -/
theorem pub_abs {s s' : St} {who : Acct} {id : Nat} {p : PubMint} (hs : Nft.setPubMint s who id p = .ok s') :
    who = (abs s id).boss ∧
    abs s' id = { abs s id with
      pub := p.enabled
      price := p.price } ∧
    (∀ j, j ≠ id → abs s' j = abs s j) := by
  simp only [Nft.setPubMint, bind_ok, ensure_ok, okOr_ok, pure_ok] at hs
  obtain ⟨k, hk, _, hw, rfl⟩ := hs
  refine ⟨by rw [abs_boss hk, hw], Tok.ext' (fun _ => rfl) (fun _ => rfl) (fun _ _ => rfl) rfl rfl rfl ?_ ?_, ?_⟩
  · show (upd s.pubMint id p id).enabled = p.enabled; rw [upd_same]
  · show (upd s.pubMint id p id).price = p.price; rw [upd_same]
  · intro j hj
    exact abs_congr rfl (fun _ => rfl) (fun _ _ => rfl) (upd_ne _ _ hj)

/-- The new owner of a contract. -/
theorem boss_abs {s s' : St} {who new : Acct} {id : Nat} (hs : Nft.setOwner s who id new = .ok s') :
    who = (abs s id).boss ∧ abs s' id = { abs s id with boss := new } ∧ (∀ j, j ≠ id → abs s' j = abs s j) := by
  simp only [Nft.setOwner, bind_ok, ensure_ok, okOr_ok, pure_ok] at hs
  obtain ⟨k, hk, _, hw, rfl⟩ := hs
  obtain ⟨h1, h2⟩ := set_abs (k' := { k with owner := new }) hk rfl rfl
  refine ⟨by rw [abs_boss hk, hw], ?_, h2⟩
  rw [h1]
  exact Tok.ext' (fun _ => rfl) (fun _ => rfl) (fun _ _ => rfl) rfl rfl (abs_cap hk).symm rfl rfl

/-- The maximum supply. -/
theorem cap_abs {s s' : St} {who : Acct} {id x : Nat} (hs : Nft.setMaxIssuance s who id x = .ok s') :
    who = (abs s id).boss ∧ (abs s id).cap = none ∧ (abs s id).supply ≤ x ∧ 0 < x ∧
    abs s' id = { abs s id with cap := some x } ∧ (∀ j, j ≠ id → abs s' j = abs s j) := by
  simp only [Nft.setMaxIssuance, bind_ok, ensure_ok, okOr_ok, pure_ok] at hs
  obtain ⟨k, hk, _, hx, _, hw, _, hn, _, hi, rfl⟩ := hs
  obtain ⟨h1, h2⟩ := set_abs (k' := { k with maxIss := some x }) hk rfl rfl
  refine ⟨by rw [abs_boss hk, hw], by rw [abs_cap hk]; exact hn, by rw [abs_supply hk]; exact hi, Nat.pos_of_ne_zero hx, ?_, h2⟩
  rw [h1]
  exact Tok.ext' (fun _ => rfl) (fun _ => rfl) (fun _ _ => rfl) (abs_boss hk).symm rfl rfl rfl rfl

/-- XLS-20 is switched on. -/
theorem xls20_abs {s s' : St} {who : Acct} {id : Nat} (hs : Nft.enableXls20 s who id = .ok s') :
    who = (abs s id).boss ∧ (abs s id).supply = 0 ∧ abs s' id = abs s id ∧ (∀ j, j ≠ id → abs s' j = abs s j) := by
  simp only [Nft.enableXls20, bind_ok, ensure_ok, okOr_ok, pure_ok] at hs
  obtain ⟨k, hk, _, hw, _, hi, rfl⟩ := hs
  obtain ⟨h1, h2⟩ := set_abs (k' := { k with xls20 := true }) hk rfl rfl
  refine ⟨by rw [abs_boss hk, hw], by rw [abs_supply hk]; exact hi, ?_, h2⟩
  rw [h1]
  exact Tok.ext' (fun _ => rfl) (fun _ => rfl) (fun _ _ => rfl) (abs_boss hk).symm rfl (abs_cap hk).symm rfl rfl

/-- An approval. -/
theorem approve_abs {s s' : St} {caller p : Acct} {id n : Nat} (hs : Nft.approve s caller p id n = .ok s') :
    (∃ a, ownerOf s id n = some a ∧ (caller = a ∨ s.forAll a id caller = true)) ∧
    abs s' id = { abs s id with approved := put (abs s id).approved n p } ∧ (∀ j, j ≠ id → abs s' j = abs s j) := by
  simp only [Nft.approve, bind_ok, ensure_ok, okOr_ok, pure_ok] at hs
  obtain ⟨_, hne, a, ha, _, hau, rfl⟩ := hs
  refine ⟨⟨a, ha, ?_⟩, Tok.ext' (fun _ => rfl) ?_ (fun _ _ => rfl) rfl rfl rfl rfl rfl, ?_⟩
  · rcases hau with h1 | h1
    · exact Or.inl h1.symm
    · exact Or.inr h1
  · intro m
    show (upd s.approvals id (upd (s.approvals id) n (some p)) id m).getD 0 = put (abs s id).approved n p m
    rw [upd_same]
    unfold put
    split
    · rename_i hm; rw [hm, upd_same]; rfl
    · rename_i hm; rw [upd_ne _ _ hm]; rfl
  · intro j hj
    refine abs_congr rfl (fun m => ?_) (fun _ _ => rfl) rfl
    show upd s.approvals id (upd (s.approvals id) n (some p)) j m = s.approvals j m
    rw [upd_ne _ _ hj]

/-- An operator. -/
theorem operator_abs {s s' : St} {caller p : Acct} {id : Nat} {ok : Bool}
    (hs : Nft.approveAll s caller p id ok = .ok s') :
    abs s' id = { abs s id with operator := put (abs s id).operator caller (put ((abs s id).operator caller) p ok) } ∧
    (∀ j, j ≠ id → abs s' j = abs s j) := by
  simp only [Nft.approveAll, bind_ok, ensure_ok, pure_ok] at hs
  obtain ⟨_, hne, rfl⟩ := hs
  constructor
  · refine Tok.ext' (fun _ => rfl) (fun _ => rfl) ?_ rfl rfl rfl rfl rfl
    intro a b
    show upd s.forAll caller (upd (s.forAll caller) id (upd (s.forAll caller id) p ok)) a id b =
      put (abs s id).operator caller (put ((abs s id).operator caller) p ok) a b
    unfold put
    split
    · rename_i ha
      subst ha
      rw [upd_same, upd_same]
      dsimp only
      split
      · rename_i hb; subst hb; rw [upd_same]
      · rename_i hb; rw [upd_ne _ _ hb]; rfl
    · rename_i ha; rw [upd_ne _ _ ha]; rfl
  · intro j hj
    refine abs_congr rfl (fun _ => rfl) (fun a b => ?_) rfl
    show upd s.forAll caller (upd (s.forAll caller) id (upd (s.forAll caller id) p ok)) a j b = s.forAll a j b
    by_cases ha : a = caller
    · subst ha; rw [upd_same, upd_ne _ _ hj]
    · rw [upd_ne _ _ ha]

/-! ## bytes -/

theorem le_len : ∀ (k x : Nat), (le k x).length = k
  | 0, _ => rfl
  | k + 1, x => by rw [le, List.length_cons, le_len k]

theorem ofLe_le : ∀ (k x : Nat), ofLe (le k x) = x % 256 ^ k
  | 0, x => by simp [le, ofLe, Nat.mod_one]
  | k + 1, x => by
    rw [le, ofLe, ofLe_le k, pow_succ, mul_comm (256 ^ k) 256, Nat.mod_mul]

theorem le_drop : ∀ (j k x : Nat), (le (j + k) x).drop j = le k (x / 256 ^ j)
  | 0, k, x => by simp
  | j + 1, k, x => by
    rw [show j + 1 + k = (j + k) + 1 by omega, le, List.drop_succ_cons, le_drop j k, Nat.div_div_eq_div_mul, pow_succ,
      mul_comm (256 ^ j) 256]

/-- The number read is the four highest bytes. -/
theorem top_bytes {w : Nat} (hw : w < U256) : ofLe (((le 32 w).drop 28).take 4) = w / 2 ^ 224 := by
  have h1 : (le 32 w).drop 28 = le 4 (w / 256 ^ 28) := le_drop 28 4 w
  rw [h1, List.take_of_length_le (by rw [le_len]), ofLe_le]
  have h2 : (256 : Nat) ^ 28 = 2 ^ 224 := by norm_num
  rw [h2]
  refine Nat.mod_eq_of_lt ?_
  unfold U256 U128 at hw
  rw [Nat.div_lt_iff_lt_mul (by positivity)]
  calc w < _ := hw
    _ = 256 ^ 4 * 2 ^ 224 := by norm_num

end Verif.Evm721
