import Verif.Evm1155.Spec
import Verif.Evm721.Props

/-!
# Properties of the ERC-1155 contract of a collection

`Std` and `hear` are in `Verif.Evm1155.Spec`.
-/

namespace Verif.Evm1155

open Sft (Cfg St Coll Reach Moves qty free res iss maxIss tok_set_same tok_set_ne tok_set_other)

/-! ## the contract and the pallet -/

theorem Tok.ext' {t t' : Tok} (h1 : ∀ n a, t.bal n a = t'.bal n a) (h2 : ∀ n, t.supply n = t'.supply n)
    (h3 : ∀ n, t.made n = t'.made n) (h4 : ∀ a b, t.operator a b = t'.operator a b) (h5 : t.boss = t'.boss)
    (h6 : ∀ n, t.cap n = t'.cap n) (h7 : ∀ n, t.pub n = t'.pub n) (h8 : ∀ n, t.price n = t'.price n) : t = t' := by
  cases t; cases t'
  simp only [Tok.mk.injEq]
  exact ⟨funext fun n => funext (h1 n), funext h2, funext h3, funext fun a => funext (h4 a), h5, funext h6, funext h7,
    funext h8⟩

theorem abs_bal (s : St) (id n : Nat) (a : Acct) : (abs s id).bal n a = free s id n a := rfl

theorem abs_supply (s : St) (id n : Nat) : (abs s id).supply n = iss s id n := rfl

theorem amountOf_qty (xs : List (Nat × Nat)) (n : Nat) : amountOf xs n = qty xs n := rfl

theorem abs_boss {s : St} {id : Nat} {k : Coll} (h : s.coll id = some k) : (abs s id).boss = k.owner := by
  show ((s.coll id).map Sft.Coll.owner).getD 0 = _
  rw [h]; rfl

/-- Moves leave other contracts alone. -/
theorem moves_other {s s' : St} {id : Nat} {m p : Nat → Acct → Nat} {i j : Nat → Nat} (h : Moves s s' id m p i j) {x : Nat}
    (hx : x ≠ id) : abs s' x = abs s x := by
  refine Tok.ext' (fun n a => ?_) (fun n => ?_) (fun n => ?_) (fun a b => ?_) ?_ (fun n => ?_) (fun n => ?_) (fun n => ?_)
  · show ((s'.tok x n).map _).getD 0 = _; rw [h.other x hx]; rfl
  · show ((s'.tok x n).map _).getD 0 = _; rw [h.other x hx]; rfl
  · show (s'.tok x n).isSome = _; rw [h.other x hx]; rfl
  · show s'.forAll a x b = _; rw [h.forAll]; rfl
  · show ((s'.coll x).map _).getD 0 = _; rw [h.coll]; rfl
  · show (s'.tok x n).bind _ = _; rw [h.other x hx]; rfl
  · show (s'.pubMint x n).enabled = _; rw [h.pubMint]; rfl
  · show (s'.pubMint x n).price = _; rw [h.pubMint]; rfl

/-- Moves change balances and supplies. -/
theorem moves_self {s s' : St} {id : Nat} {m p : Nat → Acct → Nat} {i j : Nat → Nat} (h : Moves s s' id m p i j) :
    abs s' id = { abs s id with
      bal := fun n a => free s id n a + p n a - m n a
      supply := fun n => iss s id n + j n - i n } := by
  refine Tok.ext' (fun n a => ?_) (fun n => ?_) (fun n => ?_) (fun a b => ?_) ?_ (fun n => ?_) (fun n => ?_) (fun n => ?_)
  · have := h.free n a
    show free s' id n a = free s id n a + p n a - m n a
    omega
  · have := h.iss n
    show iss s' id n = iss s id n + j n - i n
    omega
  · exact h.exist n
  · show s'.forAll a id b = _; rw [h.forAll]; rfl
  · show ((s'.coll id).map _).getD 0 = _; rw [h.coll]; rfl
  · exact h.max n
  · show (s'.pubMint id n).enabled = _; rw [h.pubMint]; rfl
  · show (s'.pubMint id n).price = _; rw [h.pubMint]; rfl

theorem transfer_made {c : Cfg} {id : Nat} {who new : Acct} (hne : who ≠ new) : ∀ {xs : List (Nat × Nat)} {s s' : St},
    Sft.SI c s → Sft.batch (Sft.transferOne c id who new) s xs = .ok s' → ∀ x ∈ xs, (s.tok id x.1).isSome = true
  | [], _, _, _, _, _, hx => nomatch hx
  | y :: ys, s, s', hsi, h, x, hx => by
    simp only [Sft.batch, bind_ok] at h
    obtain ⟨s1, h1, h2⟩ := h
    obtain ⟨i1, _, m1⟩ := Sft.transferOne_ok hsi hne h1
    rcases List.mem_cons.mp hx with rfl | hx
    · simp only [Sft.transferOne, bind_ok, ensure_ok, okOr_ok] at h1
      obtain ⟨_, _, t, ht, _⟩ := h1
      rw [ht]; rfl
    · rw [← m1.exist]; exact transfer_made hne i1 h2 x hx

theorem burn_made {c : Cfg} {id : Nat} {who : Acct} : ∀ {xs : List (Nat × Nat)} {s s' : St},
    Sft.SI c s → Sft.batch (Sft.burnOne id who) s xs = .ok s' → ∀ x ∈ xs, (s.tok id x.1).isSome = true
  | [], _, _, _, _, _, hx => nomatch hx
  | y :: ys, s, s', hsi, h, x, hx => by
    simp only [Sft.batch, bind_ok] at h
    obtain ⟨s1, h1, h2⟩ := h
    obtain ⟨i1, _, m1⟩ := Sft.burnOne_ok hsi h1
    rcases List.mem_cons.mp hx with rfl | hx
    · simp only [Sft.burnOne, bind_ok, ensure_ok, okOr_ok] at h1
      obtain ⟨_, _, t, ht, _⟩ := h1
      rw [ht]; rfl
    · rw [← m1.exist]; exact burn_made i1 h2 x hx

theorem mint_made {c : Cfg} {id : Nat} {k : Coll} {who owner : Acct} : ∀ {xs : List (Nat × Nat)} {s s' : St},
    Sft.SI c s → Sft.batch (Sft.mintOne c id k who owner) s xs = .ok s' → ∀ x ∈ xs, (s.tok id x.1).isSome = true ∧
      (who = k.owner ∨ (s.pubMint id x.1).enabled = true)
  | [], _, _, _, _, _, hx => nomatch hx
  | y :: ys, s, s', hsi, h, x, hx => by
    simp only [Sft.batch, bind_ok] at h
    obtain ⟨s1, h1, h2⟩ := h
    obtain ⟨i1, m1⟩ := Sft.mintOne_ok hsi h1
    rcases List.mem_cons.mp hx with rfl | hx
    · simp only [Sft.mintOne, bind_ok, ensure_ok, okOr_ok] at h1
      obtain ⟨_, _, _, _, _, hau, t, ht, _⟩ := h1
      refine ⟨by rw [ht]; rfl, ?_⟩
      rcases hau with hau | hau
      · exact Or.inl hau.symm
      · exact Or.inr hau
    · rw [← m1.exist, ← m1.pubMint]; exact mint_made i1 h2 x hx

/-- A transfer, in terms of the contract. -/
theorem transfer_abs {c : Cfg} {s s' : St} (hr : Reach c s) {caller src dst : Acct} {id : Nat} {xs : List (Nat × Nat)}
    (hd : dst ≠ 0) (h : Sft.safeTransfer c s caller id xs src dst = .ok s') :
    Transfer (abs s id) caller src dst xs (abs s' id) ∧ src ≠ dst ∧ (∀ j, j ≠ id → abs s' j = abs s j) := by
  simp only [Sft.safeTransfer, bind_ok, ensure_ok] at h
  obtain ⟨_, hau, h⟩ := h
  obtain ⟨_, _, _, _, hne, m⟩ := Sft.transfer_ok hr.si h
  simp only [Sft.transfer, bind_ok, ensure_ok] at h
  obtain ⟨_, _, _, _, _, _, _, _, hb⟩ := h
  have hle : ∀ n, qty xs n ≤ free s id n src := by
    intro n
    have := m.free n src
    rw [if_pos rfl, if_neg hne] at this
    omega
  refine ⟨⟨?_, hd, hle, transfer_made hne hr.si hb, ?_⟩, hne, fun j hj => moves_other m hj⟩
  · rcases hau with hau | hau
    · exact Or.inl hau.symm
    · exact Or.inr hau
  · rw [moves_self m]
    refine Tok.ext' (fun n a => ?_) (fun n => ?_) (fun _ => rfl) (fun _ _ => rfl) rfl (fun _ => rfl) (fun _ => rfl)
      (fun _ => rfl)
    · show free s id n a + (if a = dst then qty xs n else 0) - (if a = src then qty xs n else 0) =
        if a = dst then (if a = src then free s id n a - qty xs n else free s id n a) + qty xs n
        else (if a = src then free s id n a - qty xs n else free s id n a)
      have hx := hle n
      by_cases h1 : a = dst
      · by_cases h2 : a = src
        · exact absurd (h2.symm.trans h1) hne
        · rw [if_pos h1, if_neg h2, if_pos h1, if_neg h2]; omega
      · by_cases h2 : a = src
        · rw [if_neg h1, if_pos h2, if_neg h1, if_pos h2]; omega
        · rw [if_neg h1, if_neg h2, if_neg h1, if_neg h2]; omega
    · show iss s id n + 0 - 0 = iss s id n
      omega

/-- A burn, in terms of the contract. -/
theorem burn_abs {c : Cfg} {s s' : St} (hr : Reach c s) {caller src : Acct} {id : Nat} {xs : List (Nat × Nat)}
    (h : Sft.safeBurn c s caller id xs src = .ok s') :
    Burn (abs s id) caller src xs (abs s' id) ∧ (∃ x ∈ xs, 0 < amountOf xs x.1) ∧ (∀ j, j ≠ id → abs s' j = abs s j) := by
  simp only [Sft.safeBurn, bind_ok, ensure_ok] at h
  obtain ⟨_, hau, h⟩ := h
  obtain ⟨_, _, _, hne, m⟩ := Sft.burn_ok hr.si h
  simp only [Sft.burn, bind_ok, ensure_ok] at h
  obtain ⟨_, _, _, _, _, _, hb⟩ := h
  have hle : ∀ n, qty xs n ≤ free s id n src := by
    intro n
    have := m.free n src
    rw [if_pos rfl] at this
    omega
  refine ⟨⟨?_, hle, burn_made hr.si hb, ?_⟩, ?_, fun j hj => moves_other m hj⟩
  · rcases hau with hau | hau
    · exact Or.inl hau.symm
    · exact Or.inr hau
  · rw [moves_self m]
    refine Tok.ext' (fun n a => ?_) (fun n => ?_) (fun _ => rfl) (fun _ _ => rfl) rfl (fun _ => rfl) (fun _ => rfl)
      (fun _ => rfl)
    · show free s id n a + 0 - (if a = src then qty xs n else 0) =
        if a = src then free s id n a - qty xs n else free s id n a
      split <;> omega
    · show iss s id n + 0 - qty xs n = iss s id n - qty xs n
      omega
  · cases xs with
    | nil => exact absurd rfl hne
    | cons x xs =>
      refine ⟨x, List.mem_cons_self, ?_⟩
      simp only [Sft.batch, bind_ok] at hb
      obtain ⟨s1, h1, _⟩ := hb
      simp only [Sft.burnOne, bind_ok, ensure_ok] at h1
      obtain ⟨_, h0, _⟩ := h1
      rw [amountOf_qty, Sft.qty_cons, if_pos rfl]
      omega

/-- A mint, in terms of the contract. -/
theorem mint_abs {c : Cfg} {s s' : St} (hr : Reach c s) {caller dst : Acct} {id : Nat} {xs : List (Nat × Nat)}
    (h : Sft.mint c s caller id xs (some dst) = .ok s') :
    Mint (abs s id) caller dst xs (abs s' id) ∧ (∀ j, j ≠ id → abs s' j = abs s j) := by
  have hr' : Reach c s' := hr.step (op := .mint caller id xs (some dst)) h
  obtain ⟨_, _, _, m⟩ := Sft.mint_ok hr.si h
  simp only [Sft.mint, bind_ok, ensure_ok, okOr_ok] at h
  obtain ⟨_, _, _, _, k, hk, _, _, hb⟩ := h
  have hma := mint_made hr.si hb
  refine ⟨⟨fun x hx => ?_, fun x hx => (hma x hx).1, ?_, ?_⟩, fun j hj => moves_other m hj⟩
  · rw [abs_boss hk]; exact (hma x hx).2
  · intro n x hx
    change maxIss s id n = some x at hx
    show iss s id n + qty xs n ≤ x
    have e := m.iss n
    cases ht : s'.tok id n with
    | none =>
      have := m.exist n
      rw [ht] at this
      cases ht0 : s.tok id n with
      | none => unfold maxIss at hx; rw [ht0] at hx; cases hx
      | some t => rw [ht0] at this; cases this
    | some t =>
      have := (Sft.C28_sums hr' ht).2.2.1 x (by rw [m.max]; exact hx)
      omega
  · rw [moves_self m]
    refine Tok.ext' (fun n a => ?_) (fun n => ?_) (fun _ => rfl) (fun _ _ => rfl) rfl (fun _ => rfl) (fun _ => rfl)
      (fun _ => rfl)
    · show free s id n a + (if a = dst then qty xs n else 0) - 0 =
        if a = dst then free s id n a + qty xs n else free s id n a
      split <;> omega
    · show iss s id n + qty xs n - 0 = iss s id n + qty xs n
      omega

/-- States that differ only in money, royalties and the like are the same contracts. -/
theorem abs_congr {s s' : St} {id : Nat} (h1 : s'.tok id = s.tok id)
    (h2 : ((s'.coll id).map Sft.Coll.owner).getD 0 = ((s.coll id).map Sft.Coll.owner).getD 0)
    (h3 : s'.pubMint id = s.pubMint id) (h4 : ∀ a b, s'.forAll a id b = s.forAll a id b) : abs s' id = abs s id := by
  refine Tok.ext' (fun n a => ?_) (fun n => ?_) (fun n => ?_) h4 h2 (fun n => ?_) (fun n => ?_) (fun n => ?_)
  · show ((s'.tok id n).map _).getD 0 = _; rw [h1]; rfl
  · show ((s'.tok id n).map _).getD 0 = _; rw [h1]; rfl
  · show (s'.tok id n).isSome = _; rw [h1]; rfl
  · show (s'.tok id n).bind _ = _; rw [h1]; rfl
  · show (s'.pubMint id n).enabled = _; rw [h3]; rfl
  · show (s'.pubMint id n).price = _; rw [h3]; rfl

/-- A change of owner, in terms of the contract. -/
theorem boss_abs {s s' : St} {who new : Acct} {id : Nat} (h : Sft.setOwner s who id new = .ok s') :
    who = (abs s id).boss ∧ abs s' id = { abs s id with boss := new } ∧ (∀ j, j ≠ id → abs s' j = abs s j) := by
  simp only [Sft.setOwner, bind_ok, ensure_ok, okOr_ok, pure_ok] at h
  obtain ⟨k, hk, _, ho, rfl⟩ := h
  refine ⟨by rw [abs_boss hk]; exact ho.symm, ?_, fun j hj => abs_congr rfl ?_ rfl (fun _ _ => rfl)⟩
  · refine Tok.ext' (fun _ _ => rfl) (fun _ => rfl) (fun _ => rfl) (fun _ _ => rfl) ?_ (fun _ => rfl) (fun _ => rfl)
      (fun _ => rfl)
    show ((upd s.coll id _ id).map Sft.Coll.owner).getD 0 = new
    rw [upd_same]; rfl
  · show ((upd s.coll id _ j).map Sft.Coll.owner).getD 0 = _
    rw [upd_ne _ _ hj]

/-- A new maximum, in terms of the contract. -/
theorem cap_abs {s s' : St} {who : Acct} {id n m : Nat} (h : Sft.setMax s who id n m = .ok s') :
    who = (abs s id).boss ∧ (abs s id).made n = true ∧ (abs s id).cap n = none ∧ (abs s id).supply n ≤ m ∧ 0 < m ∧
    abs s' id = { abs s id with cap := put (abs s id).cap n (some m) } ∧ (∀ j, j ≠ id → abs s' j = abs s j) := by
  simp only [Sft.setMax, bind_ok, ensure_ok, okOr_ok, pure_ok] at h
  obtain ⟨_, h0, k, hk, _, ho, t, ht, _, hn, _, hi, rfl⟩ := h
  refine ⟨by rw [abs_boss hk]; exact ho.symm, ?_, ?_, ?_, Nat.pos_of_ne_zero h0, ?_, fun j hj => ?_⟩
  · show (s.tok id n).isSome = true; rw [ht]; rfl
  · show (s.tok id n).bind _ = none; rw [ht]; exact hn
  · show ((s.tok id n).map _).getD 0 ≤ m; rw [ht]; exact hi
  · refine Tok.ext' (fun x a => ?_) (fun x => ?_) (fun x => ?_) (fun _ _ => rfl) rfl (fun x => ?_) (fun _ => rfl)
      (fun _ => rfl)
    · show (((Sft.setTok s id n _).tok id x).map _).getD 0 = ((s.tok id x).map _).getD 0
      by_cases hx : x = n
      · subst hx; rw [tok_set_same, ht]; rfl
      · rw [tok_set_ne _ _ _ _ hx]
    · show (((Sft.setTok s id n _).tok id x).map _).getD 0 = ((s.tok id x).map _).getD 0
      by_cases hx : x = n
      · subst hx; rw [tok_set_same, ht]; rfl
      · rw [tok_set_ne _ _ _ _ hx]
    · show ((Sft.setTok s id n _).tok id x).isSome = (s.tok id x).isSome
      by_cases hx : x = n
      · subst hx; rw [tok_set_same, ht]; rfl
      · rw [tok_set_ne _ _ _ _ hx]
    · show ((Sft.setTok s id n _).tok id x).bind _ = if x = n then some m else (s.tok id x).bind _
      by_cases hx : x = n
      · subst hx; rw [tok_set_same, if_pos rfl]; rfl
      · rw [tok_set_ne _ _ _ _ hx, if_neg hx]
  · exact abs_congr (tok_set_other _ _ _ _ hj) rfl rfl (fun _ _ => rfl)

/-- New rules of minting, in terms of the contract. -/
theorem pub_abs {s s' : St} {who : Acct} {id n : Nat} {p : Nft.PubMint} (h : Sft.setPubMint s who id n p = .ok s') :
    who = (abs s id).boss ∧ abs s' id = { abs s id with
      pub := put (abs s id).pub n p.enabled
      price := put (abs s id).price n p.price } ∧ (∀ j, j ≠ id → abs s' j = abs s j) := by
  simp only [Sft.setPubMint, bind_ok, ensure_ok, okOr_ok, pure_ok] at h
  obtain ⟨k, hk, _, ho, rfl⟩ := h
  refine ⟨by rw [abs_boss hk]; exact ho.symm, ?_, fun j hj => abs_congr rfl rfl (upd_ne _ _ hj) (fun _ _ => rfl)⟩
  refine Tok.ext' (fun _ _ => rfl) (fun _ => rfl) (fun _ => rfl) (fun _ _ => rfl) rfl (fun _ => rfl) (fun x => ?_)
    (fun x => ?_)
  · show (upd s.pubMint id _ id x).enabled = if x = n then p.enabled else (s.pubMint id x).enabled
    rw [upd_same]
    by_cases hx : x = n
    · subst hx; rw [upd_same, if_pos rfl]
    · rw [upd_ne _ _ hx, if_neg hx]
  · show (upd s.pubMint id _ id x).price = if x = n then p.price else (s.pubMint id x).price
    rw [upd_same]
    by_cases hx : x = n
    · subst hx; rw [upd_same, if_pos rfl]
    · rw [upd_ne _ _ hx, if_neg hx]

/-- A new operator, in terms of the contract. -/
theorem operator_abs {s s' : St} {caller p : Acct} {id : Nat} {ok : Bool} (h : Sft.approveAll s caller p id ok = .ok s') :
    abs s' id = { abs s id with operator := put (abs s id).operator caller (put ((abs s id).operator caller) p ok) } ∧
    (∀ j, j ≠ id → abs s' j = abs s j) := by
  simp only [Sft.approveAll, bind_ok, ensure_ok, pure_ok] at h
  obtain ⟨_, _, rfl⟩ := h
  have key : ∀ a j b, upd s.forAll caller (upd (s.forAll caller) id (upd (s.forAll caller id) p ok)) a j b =
      if a = caller ∧ j = id ∧ b = p then ok else s.forAll a j b := by
    intro a j b
    by_cases h1 : a = caller
    · subst h1
      rw [upd_same]
      by_cases h2 : j = id
      · subst h2
        rw [upd_same]
        by_cases h3 : b = p
        · subst h3; rw [upd_same, if_pos ⟨rfl, rfl, rfl⟩]
        · rw [upd_ne _ _ h3, if_neg (fun h => h3 h.2.2)]
      · rw [upd_ne _ _ h2, if_neg (fun h => h2 h.2.1)]
    · rw [upd_ne _ _ h1, if_neg (fun h => h1 h.1)]
  refine ⟨?_, fun j hj => abs_congr rfl rfl rfl (fun a b => ?_)⟩
  · refine Tok.ext' (fun _ _ => rfl) (fun _ => rfl) (fun _ => rfl) (fun a b => ?_) rfl (fun _ => rfl) (fun _ => rfl)
      (fun _ => rfl)
    show upd s.forAll caller _ a id b = (if a = caller then (fun x => if x = p then ok else s.forAll caller id x)
      else s.forAll a id) b
    rw [key]
    by_cases h1 : a = caller
    · subst h1
      rw [if_pos rfl]
      by_cases h3 : b = p
      · rw [if_pos ⟨rfl, rfl, h3⟩]; exact (if_pos h3).symm
      · rw [if_neg (fun h => h3 h.2.2)]; exact (if_neg h3).symm
    · rw [if_neg h1, if_neg (fun h => h1 h.1)]
  · show upd s.forAll caller _ a j b = _
    rw [key, if_neg (fun h => hj h.2.1)]

/-- A new token, in terms of the contract. -/
theorem create_abs {c : Cfg} {s s' : St} (hr : Reach c s) {who : Acct} {id initial : Nat} {max : Option Nat}
    {rcv : Option Acct} {ext : Bool} {k : Coll} (hk : s.coll id = some k)
    (h : Sft.createToken s who id initial max rcv ext = .ok s') :
    who = (abs s id).boss ∧ (∀ m, max = some m → initial ≤ m) ∧ (abs s id).made k.next = false ∧
    abs s' id = { abs s id with
      bal := give (abs s id).bal (rcv.getD who) [(k.next, initial)]
      supply := put (abs s id).supply k.next initial
      made := put (abs s id).made k.next true
      cap := put (abs s id).cap k.next max } ∧ (∀ j, j ≠ id → abs s' j = abs s j) := by
  simp only [Sft.createToken, bind_ok, ensure_ok, okOr_ok, pure_ok] at h
  obtain ⟨_, _, k1, hk1, _, ho, _, hm, _, _, _, _, rfl⟩ := h
  rw [hk] at hk1; cases hk1
  have hnone : s.tok id k.next = none := by
    cases ht : s.tok id k.next with
    | none => rfl
    | some t =>
      obtain ⟨k0, h0, h1⟩ := hr.si.below _ _ _ ht
      rw [hk] at h0; cases h0
      omega
  refine ⟨by rw [abs_boss hk]; exact ho, fun m h => (hm m h).2, ?_, ?_, fun j hj => abs_congr ?_ ?_ rfl (fun _ _ => rfl)⟩
  · show (s.tok id k.next).isSome = false; rw [hnone]; rfl
  · refine Tok.ext' (fun x a => ?_) (fun x => ?_) (fun x => ?_) (fun _ _ => rfl) ?_ (fun x => ?_) (fun _ => rfl)
      (fun _ => rfl)
    · show (((Sft.setTok s id k.next _).tok id x).map (fun t => Sft.freeOf t.owned a)).getD 0 =
        if a = rcv.getD who then ((s.tok id x).map (fun t => Sft.freeOf t.owned a)).getD 0 + amountOf [(k.next, initial)] x
        else ((s.tok id x).map (fun t => Sft.freeOf t.owned a)).getD 0
      rw [amountOf_qty, Sft.qty_cons, Sft.qty_nil]
      by_cases hx : x = k.next
      · subst hx
        rw [tok_set_same, hnone]
        show Sft.freeOf (Sft.firstOwned (rcv.getD who) initial) a = _
        unfold Sft.firstOwned
        by_cases h0 : 0 < initial
        · rw [if_pos h0]
          by_cases ha : a = rcv.getD who
          · subst ha
            simp [Sft.freeOf, Sft.lookup]
          · simp [Sft.freeOf, Sft.lookup, ha, Ne.symm ha]
        · rw [if_neg h0]
          have : initial = 0 := by omega
          subst this
          simp [Sft.freeOf, Sft.lookup]
      · rw [tok_set_ne _ _ _ _ hx, if_neg hx]
        split <;> rfl
    · show (((Sft.setTok s id k.next _).tok id x).map _).getD 0 = if x = k.next then initial else ((s.tok id x).map _).getD 0
      by_cases hx : x = k.next
      · subst hx; rw [tok_set_same, if_pos rfl]; rfl
      · rw [tok_set_ne _ _ _ _ hx, if_neg hx]
    · show ((Sft.setTok s id k.next _).tok id x).isSome = if x = k.next then true else (s.tok id x).isSome
      by_cases hx : x = k.next
      · subst hx; rw [tok_set_same, if_pos rfl]; rfl
      · rw [tok_set_ne _ _ _ _ hx, if_neg hx]
    · show ((upd s.coll id _ id).map Sft.Coll.owner).getD 0 = ((s.coll id).map Sft.Coll.owner).getD 0
      rw [upd_same, hk]; rfl
    · show ((Sft.setTok s id k.next _).tok id x).bind _ = if x = k.next then max else (s.tok id x).bind _
      by_cases hx : x = k.next
      · subst hx; rw [tok_set_same, if_pos rfl]; rfl
      · rw [tok_set_ne _ _ _ _ hx, if_neg hx]
  · exact tok_set_other _ _ _ _ hj
  · show ((upd s.coll id _ j).map Sft.Coll.owner).getD 0 = _
    rw [upd_ne _ _ hj]

/-! ## a demonstration -/

/-- Calls of the contract of collection 100 of `Sft.demo`. -/
def msg (caller : Acct) : Msg := ⟨100, caller, 0, false, true⟩

/-- As `msg`, in a static call. -/
def smsg (caller : Acct) : Msg := ⟨100, caller, 0, true, true⟩

/-- Logs and answer. -/
def said (x : Option Res) : Option (List Log × Out) := x.bind (fun r => r.toOption.map (fun p => p.2))

/-! ## C189 -/

/-- A call that succeeds has passed the checks and run. -/
theorem call_ok {c : Cfg} {s : St} {m : Msg} {k : Call} {r : St × List Log × Out}
    (h : call c s m k = some (.ok r)) :
    (∃ k0, s.coll m.coll = some k0) ∧ (m.static = false ∨ view k = true) ∧ m.value = 0 ∧ run c s m k = .ok r := by
  unfold call at h
  cases hk : s.coll m.coll with
  | none => rw [hk] at h; cases h
  | some k0 =>
    rw [hk] at h
    simp only [Option.some.injEq, bind_ok, ensure_ok] at h
    obtain ⟨_, h1, _, h2, h3⟩ := h
    exact ⟨⟨k0, rfl⟩, h1, h2, h3⟩

theorem run_std {c : Cfg} {s s' : St} (hr : Reach c s) {m : Msg} {k : Call} {l : List Log} {o : Out}
    (h : run c s m k = .ok (s', l, o)) :
    Std (abs s m.coll) m.caller k (abs s' m.coll) l o ∧ ∀ j, j ≠ m.coll → abs s' j = abs s j := by
  cases k with
  | balanceOf a n =>
    simp only [run, serial, bind_ok, ensure_ok, pure_ok, Prod.mk.injEq] at h
    obtain ⟨_, _, rfl, rfl, rfl⟩ := h
    exact ⟨⟨rfl, rfl, rfl⟩, fun _ _ => rfl⟩
  | balanceOfBatch as ns =>
    simp only [run, bind_ok, ensure_ok, pure_ok, Prod.mk.injEq] at h
    obtain ⟨_, hlen, _, _, rfl, rfl, rfl⟩ := h
    refine ⟨⟨rfl, rfl, _, rfl, ?_, ?_, ?_⟩, fun _ _ => rfl⟩
    · rw [List.length_map, List.length_zip]; omega
    · rw [List.length_map, List.length_zip]; omega
    · intro i h h1 h2
      rw [List.getElem_map, List.getElem_zip]
      rfl
  | isApprovedForAll a p =>
    simp only [run, Except.ok.injEq, Prod.mk.injEq] at h
    obtain ⟨rfl, rfl, rfl⟩ := h
    exact ⟨⟨rfl, rfl, rfl⟩, fun _ _ => rfl⟩
  | totalSupply n =>
    simp only [run, serial, bind_ok, ensure_ok, pure_ok, Prod.mk.injEq] at h
    obtain ⟨_, _, rfl, rfl, rfl⟩ := h
    exact ⟨⟨rfl, rfl, rfl⟩, fun _ _ => rfl⟩
  | exist n =>
    simp only [run, serial, bind_ok, ensure_ok, pure_ok, Prod.mk.injEq] at h
    obtain ⟨_, _, rfl, rfl, rfl⟩ := h
    exact ⟨⟨rfl, rfl, rfl⟩, fun _ _ => rfl⟩
  | owner =>
    simp only [run, bind_ok, okOr_ok, pure_ok, Prod.mk.injEq] at h
    obtain ⟨k1, hk1, rfl, rfl, rfl⟩ := h
    exact ⟨⟨rfl, rfl, by rw [abs_boss hk1]⟩, fun _ _ => rfl⟩
  | setApprovalForAll p ok =>
    simp only [run, bind_ok, pure_ok, Prod.mk.injEq] at h
    obtain ⟨s1, ht, rfl, rfl, rfl⟩ := h
    obtain ⟨h2, h3⟩ := operator_abs ht
    exact ⟨⟨h2, rfl, rfl⟩, h3⟩
  | transferFrom src dst n q =>
    simp only [run, serial, amount, bind_ok, ensure_ok, pure_ok, Prod.mk.injEq] at h
    obtain ⟨_, _, _, _, _, hd, s1, ht, rfl, rfl, rfl⟩ := h
    obtain ⟨h1, _, h3⟩ := transfer_abs hr hd ht
    exact ⟨⟨h1, rfl, rfl⟩, h3⟩
  | batchTransferFrom src dst ns qs =>
    simp only [run, pairs, bind_ok, ensure_ok, pure_ok, Prod.mk.injEq] at h
    obtain ⟨_, ⟨_, _, _, _, _, hlen, rfl⟩, _, hd, s1, ht, rfl, rfl, rfl⟩ := h
    obtain ⟨h1, _, h3⟩ := transfer_abs hr hd ht
    exact ⟨⟨hlen, h1, rfl, rfl⟩, h3⟩
  | burn a n q =>
    simp only [run, serial, amount, bind_ok, ensure_ok, pure_ok, Prod.mk.injEq] at h
    obtain ⟨_, _, _, _, s1, ht, rfl, rfl, rfl⟩ := h
    obtain ⟨h1, _, h3⟩ := burn_abs hr ht
    exact ⟨⟨h1, rfl, rfl⟩, h3⟩
  | burnBatch a ns qs =>
    simp only [run, pairs, bind_ok, ensure_ok, pure_ok, Prod.mk.injEq] at h
    obtain ⟨_, ⟨_, _, _, _, _, hlen, rfl⟩, s1, ht, rfl, rfl, rfl⟩ := h
    obtain ⟨h1, _, h3⟩ := burn_abs hr ht
    exact ⟨⟨hlen, h1, rfl, rfl⟩, h3⟩
  | mint dst n q =>
    simp only [run, serial, amount, bind_ok, ensure_ok, pure_ok, Prod.mk.injEq] at h
    obtain ⟨_, _, _, _, s1, ht, rfl, rfl, rfl⟩ := h
    obtain ⟨h1, h3⟩ := mint_abs hr ht
    exact ⟨⟨h1, rfl, rfl⟩, h3⟩
  | mintBatch dst ns qs =>
    simp only [run, pairs, bind_ok, ensure_ok, pure_ok, Prod.mk.injEq] at h
    obtain ⟨_, ⟨_, _, _, _, _, hlen, rfl⟩, s1, ht, rfl, rfl, rfl⟩ := h
    obtain ⟨h1, h3⟩ := mint_abs hr ht
    exact ⟨⟨hlen, h1, rfl, rfl⟩, h3⟩
  | createToken initial max rcv =>
    simp only [run, bind_ok, ensure_ok, okOr_ok, pure_ok, Prod.mk.injEq] at h
    obtain ⟨_, _, _, _, k1, hk1, s1, ht, rfl, rfl, rfl⟩ := h
    obtain ⟨h1, h2, h3, h4, h5⟩ := create_abs hr hk1 ht
    refine ⟨⟨h1, ?_, k1.next, h3, ?_, rfl, rfl⟩, h5⟩
    · by_cases h0 : max = 0
      · exact Or.inl h0
      · exact Or.inr (h2 max (if_neg h0))
    · rw [h4]
      have : (if rcv = 0 then none else some rcv : Option Acct).getD m.caller = if rcv = 0 then m.caller else rcv := by
        split <;> rfl
      rw [this]
  | setMaxSupply n x =>
    simp only [run, serial, bind_ok, ensure_ok, pure_ok, Prod.mk.injEq] at h
    obtain ⟨_, _, _, _, s1, ht, rfl, rfl, rfl⟩ := h
    obtain ⟨h1, h2, h3, h4, h5, h6, h7⟩ := cap_abs ht
    exact ⟨⟨h1, h2, h3, h4, h5, h6, rfl, rfl⟩, h7⟩
  | togglePublicMint n on =>
    simp only [run, serial, bind_ok, ensure_ok, pure_ok, Prod.mk.injEq] at h
    obtain ⟨_, _, s1, ht, rfl, rfl, rfl⟩ := h
    obtain ⟨h1, h2, h3⟩ := pub_abs ht
    refine ⟨⟨h1, ?_, rfl, rfl⟩, h3⟩
    rw [h2]
    refine Tok.ext' (fun _ _ => rfl) (fun _ => rfl) (fun _ => rfl) (fun _ _ => rfl) rfl (fun _ => rfl) (fun _ => rfl)
      (fun x => ?_)
    show (if x = n then (s.pubMint m.coll n).price else (s.pubMint m.coll x).price) = (s.pubMint m.coll x).price
    split
    · rename_i hx; rw [hx]
    · rfl
  | setMintFee n asset fee =>
    simp only [run, serial, bind_ok, ensure_ok, okOr_ok, pure_ok, Prod.mk.injEq] at h
    obtain ⟨_, _, a, ha, _, _, s1, ht, rfl, rfl, rfl⟩ := h
    obtain ⟨h1, h2, h3⟩ := pub_abs ht
    refine ⟨⟨h1, a, ha, ?_, rfl, rfl⟩, h3⟩
    rw [h2]
    refine Tok.ext' (fun _ _ => rfl) (fun _ => rfl) (fun _ => rfl) (fun _ _ => rfl) rfl (fun _ => rfl) (fun x => ?_)
      (fun _ => rfl)
    show (if x = n then (s.pubMint m.coll n).enabled else (s.pubMint m.coll x).enabled) = (s.pubMint m.coll x).enabled
    split
    · rename_i hx; rw [hx]
    · rfl
  | renounceOwnership =>
    simp only [run, bind_ok, pure_ok, Prod.mk.injEq] at h
    obtain ⟨s1, ht, rfl, rfl, rfl⟩ := h
    obtain ⟨h1, h2, h3⟩ := boss_abs ht
    exact ⟨⟨h1, h2, by rw [h1], rfl⟩, h3⟩
  | transferOwnership new =>
    simp only [run, bind_ok, pure_ok, Prod.mk.injEq] at h
    obtain ⟨s1, ht, rfl, rfl, rfl⟩ := h
    obtain ⟨h1, h2, h3⟩ := boss_abs ht
    exact ⟨⟨h1, h2, by rw [h1], rfl⟩, h3⟩

/-- C189: a successful call of the contract of a collection, in any reachable state, answers, changes and logs what the
standard says, and nothing of any other collection changes. -/
theorem C189_std {c : Cfg} {s s' : St} (hr : Reach c s) {m : Msg} {k : Call} {l : List Log} {o : Out}
    (h : call c s m k = some (.ok (s', l, o))) :
    Std (abs s m.coll) m.caller k (abs s' m.coll) l o ∧ ∀ j, j ≠ m.coll → abs s' j = abs s j :=
  run_std hr (call_ok h).2.2.2

/-- Non-vacuity: answers and logs in the demonstration. -/
example : said (call Sft.cfg0 Sft.demo (msg 5) (.balanceOf 1 0)) = some ([], .num 50) ∧
    said (call Sft.cfg0 Sft.demo (msg 5) (.balanceOfBatch [1, 2, 7] [0, 0, 1])) = some ([], .nums [50, 20, 12]) ∧
    said (call Sft.cfg0 Sft.demo (msg 9) (.batchTransferFrom 2 4 [0, 0] [15, 5])) =
      some ([.batch 9 2 4 [0, 0] [15, 5]], .unit) ∧
    said (call Sft.cfg0 Sft.demo (msg 9) (.batchTransferFrom 2 4 [0, 0] [15, 6])) = none ∧
    said (call Sft.cfg0 Sft.demo (msg 8) (.transferFrom 2 4 0 1)) = none ∧
    said (call Sft.cfg0 Sft.demo (msg 7) (.mint 8 1 3)) = some ([.single 7 0 8 1 3], .unit) ∧
    said (call Sft.cfg0 Sft.demo (msg 1) (.createToken 40 0 6)) = some ([.created 2], .num 2) ∧
    said (call Sft.cfg0 Sft.demo (msg 1) (.setMaxSupply 1 500)) = some ([.maxSupply 500], .unit) := by decide +kernel

/-- C189: supplies and balances agree: of every token the balances and what is reserved of each account add up to the
supply. -/
theorem C189_supply_partial {c : Cfg} {s : St} (hr : Reach c s) (id n : Nat) :
    ∃ reserved : Acct → Nat, TotalIs (fun a => (abs s id).bal n a + reserved a) ((abs s id).supply n) := by
  cases ht : s.tok id n with
  | none =>
    refine ⟨fun _ => 0, ?_⟩
    have e1 : (fun a => (abs s id).bal n a + 0) = fun _ => 0 := by
      funext a
      show ((s.tok id n).map _).getD 0 + 0 = 0
      rw [ht]; rfl
    have e2 : (abs s id).supply n = 0 := by
      show ((s.tok id n).map _).getD 0 = 0
      rw [ht]; rfl
    rw [e1, e2]
    exact TotalIs.zero
  | some t => exact ⟨res s id n, (Sft.C28_sums hr ht).1⟩

/-- C189 fails: the balances an ERC-1155 contract reports do not add up to the supply it reports: tokens listed for sale
are counted in the supply but belong to nobody. -/
theorem C189_supply_refuted : ∃ s, Reach Sft.cfg0 s ∧
    said (call Sft.cfg0 s (msg 5) (.totalSupply 0)) = some ([], .num 100) ∧
    TotalIs (fun a => (abs s 100).bal 0 a) 70 := by
  refine ⟨Sft.demo, Sft.demo_reach, by decide +kernel, ?_⟩
  have ho : (Sft.demo.tok 100 0).map Sft.Tok.owned = some [(1, ⟨50, 30⟩), (2, ⟨20, 0⟩)] := by decide +kernel
  cases ht : Sft.demo.tok 100 0 with
  | none => rw [ht] at ho; cases ho
  | some t =>
    rw [ht, Option.map_some, Option.some.injEq] at ho
    refine ⟨{1, 2}, fun a ha => ?_, ?_⟩
    · show free Sft.demo 100 0 a = 0
      unfold free
      rw [ht]
      show Sft.freeOf t.owned a = 0
      rw [ho]
      simp only [Finset.mem_insert, Finset.mem_singleton, not_or] at ha
      simp [Sft.freeOf, Sft.lookup, Ne.symm ha.1, Ne.symm ha.2]
    · decide +kernel

/-- The tokens a call is about. -/
def about : Call → List Nat
  | .balanceOf _ n => [n]
  | .balanceOfBatch _ ns => ns
  | .totalSupply n => [n]
  | .exist n => [n]
  | .transferFrom _ _ n _ => [n]
  | .batchTransferFrom _ _ ns _ => ns
  | .burn _ n _ => [n]
  | .burnBatch _ ns _ => ns
  | .mint _ n _ => [n]
  | .mintBatch _ ns _ => ns
  | .setMaxSupply n _ => [n]
  | .togglePublicMint n _ => [n]
  | .setMintFee n _ _ => [n]
  | _ => []

/-- The amounts in a call. -/
def amounts : Call → List Nat
  | .transferFrom _ _ _ q => [q]
  | .batchTransferFrom _ _ _ qs => qs
  | .burn _ _ q => [q]
  | .burnBatch _ _ qs => qs
  | .mint _ _ q => [q]
  | .mintBatch _ _ qs => qs
  | .createToken i m _ => [i, m]
  | .setMaxSupply _ m => [m]
  | .setMintFee _ _ f => [f]
  | _ => []

/-- C189: token ids beyond 32 bits and amounts beyond 128 bits are never taken for others: calls with them fail. -/
theorem C189_ids {c : Cfg} {s : St} {m : Msg} {k : Call} {r : St × List Log × Out} (h : call c s m k = some (.ok r)) :
    (∀ n ∈ about k, n < 2 ^ 32) ∧ ∀ q ∈ amounts k, q < 2 ^ 128 := by
  have hU : (2 : Nat) ^ 32 = U32 := by unfold U32; norm_num
  have hV : (2 : Nat) ^ 128 = U128 := by unfold U128; norm_num
  rw [hU, hV]
  obtain ⟨_, _, _, h⟩ := call_ok h
  have one : ∀ {x b : Nat}, x < b → ∀ y ∈ [x], y < b := by
    intro x b hx y hy
    rw [List.mem_singleton] at hy
    rw [hy]; exact hx
  have none' : ∀ {b : Nat}, ∀ y ∈ ([] : List Nat), y < b := fun y hy => nomatch hy
  cases k with
  | balanceOf a n =>
    simp only [run, serial, bind_ok, ensure_ok] at h
    obtain ⟨_, h1, _⟩ := h
    exact ⟨one h1, none'⟩
  | balanceOfBatch as ns =>
    simp only [run, bind_ok, ensure_ok] at h
    obtain ⟨_, _, _, h1, _⟩ := h
    exact ⟨h1, none'⟩
  | isApprovedForAll a p => exact ⟨none', none'⟩
  | totalSupply n =>
    simp only [run, serial, bind_ok, ensure_ok] at h
    obtain ⟨_, h1, _⟩ := h
    exact ⟨one h1, none'⟩
  | exist n =>
    simp only [run, serial, bind_ok, ensure_ok] at h
    obtain ⟨_, h1, _⟩ := h
    exact ⟨one h1, none'⟩
  | owner => exact ⟨none', none'⟩
  | setApprovalForAll p ok => exact ⟨none', none'⟩
  | transferFrom src dst n q =>
    simp only [run, serial, amount, bind_ok, ensure_ok] at h
    obtain ⟨_, h1, _, h2, _⟩ := h
    exact ⟨one h1, one h2⟩
  | batchTransferFrom src dst ns qs =>
    simp only [run, pairs, bind_ok, ensure_ok] at h
    obtain ⟨_, ⟨_, h1, _, h2, _⟩, _⟩ := h
    exact ⟨h1, h2⟩
  | burn a n q =>
    simp only [run, serial, amount, bind_ok, ensure_ok] at h
    obtain ⟨_, h1, _, h2, _⟩ := h
    exact ⟨one h1, one h2⟩
  | burnBatch a ns qs =>
    simp only [run, pairs, bind_ok, ensure_ok] at h
    obtain ⟨_, ⟨_, h1, _, h2, _⟩, _⟩ := h
    exact ⟨h1, h2⟩
  | mint dst n q =>
    simp only [run, serial, amount, bind_ok, ensure_ok] at h
    obtain ⟨_, h1, _, h2, _⟩ := h
    exact ⟨one h1, one h2⟩
  | mintBatch dst ns qs =>
    simp only [run, pairs, bind_ok, ensure_ok] at h
    obtain ⟨_, ⟨_, h1, _, h2, _⟩, _⟩ := h
    exact ⟨h1, h2⟩
  | createToken initial max rcv =>
    simp only [run, bind_ok, ensure_ok] at h
    obtain ⟨_, h1, _, h2, _⟩ := h
    refine ⟨none', fun q hq => ?_⟩
    simp only [amounts, List.mem_cons, List.not_mem_nil, or_false] at hq
    rcases hq with rfl | rfl
    · exact h1
    · exact h2
  | setMaxSupply n x =>
    simp only [run, serial, bind_ok, ensure_ok] at h
    obtain ⟨_, h1, _, h2, _⟩ := h
    exact ⟨one h1, one h2⟩
  | togglePublicMint n on =>
    simp only [run, serial, bind_ok, ensure_ok] at h
    obtain ⟨_, h1, _⟩ := h
    exact ⟨one h1, none'⟩
  | setMintFee n asset fee =>
    simp only [run, serial, bind_ok, ensure_ok, okOr_ok] at h
    obtain ⟨_, h1, _, _, _, h2, _⟩ := h
    exact ⟨one h1, one h2⟩
  | renounceOwnership => exact ⟨none', none'⟩
  | transferOwnership new => exact ⟨none', none'⟩

/-- C189: an account or its operator moves what the account has: a batch of tokens that exist, with transfers switched on,
of positive amounts that the balances cover, to somebody else, if the lists of holders have room, succeeds. -/
theorem C189_transfer {c : Cfg} {s : St} (hr : Reach c s) {m : Msg} {src dst : Acct} {ns qs : List Nat} {k : Coll}
    (hk : s.coll m.coll = some k) (hst : m.static = false) (hv : m.value = 0) (hm : May (abs s m.coll) m.caller src)
    (hd : dst ≠ 0) (hne : src ≠ dst) (hf : (s.flags m.coll).transferable = true) (h0 : ns ≠ [])
    (hl : ns.length = qs.length) (hlen : ns.length ≤ c.maxSerials) (hn : ∀ n ∈ ns, n < 2 ^ 32)
    (hq : ∀ q ∈ qs, 0 < q ∧ q < 2 ^ 128) (hex : ∀ n ∈ ns, (abs s m.coll).made n = true)
    (hb : ∀ n, amountOf (ns.zip qs) n ≤ (abs s m.coll).bal n src)
    (hroom : ∀ n t, s.tok m.coll n = some t → dst ∈ t.owned.map Prod.fst ∨ t.owned.length < c.maxOwners) :
    ∃ s', call c s m (.batchTransferFrom src dst ns qs) = some (.ok (s', [.batch m.caller src dst ns qs], .unit)) := by
  have hU : (2 : Nat) ^ 32 = U32 := by unfold U32; norm_num
  have hV : (2 : Nat) ^ 128 = U128 := by unfold U128; norm_num
  rw [hU] at hn
  rw [hV] at hq
  have hz : ns.zip qs ≠ [] := by
    intro h
    have := congrArg List.length h
    rw [List.length_zip, List.length_nil] at this
    exact h0 (List.length_eq_zero_iff.mp (by omega))
  obtain ⟨s', hs⟩ := Sft.C29_transfer_succeeds hr (id := m.coll) (xs := ns.zip qs) hne hf hz
    (by rw [List.length_zip]; omega) (fun x hx => Nat.pos_iff_ne_zero.mp (hq x.2 (List.of_mem_zip hx).2).1)
    (fun x hx => Option.isSome_iff_exists.mp (hex x.1 (List.of_mem_zip hx).1)) hb hroom
  refine ⟨s', ?_⟩
  unfold call
  rw [hk]
  simp only [Option.some.injEq, bind_ok, ensure_ok]
  refine ⟨(), Or.inl hst, (), hv, ?_⟩
  simp only [run, pairs, Sft.safeTransfer, bind_ok, ensure_ok, pure_ok]
  refine ⟨ns.zip qs, ⟨(), hn, (), fun q h => (hq q h).2, (), hl, rfl⟩, (), hd, s', ⟨(), ?_, hs⟩, rfl⟩
  rcases hm with hm | hm
  · exact Or.inl hm.symm
  · exact Or.inr hm

/-- C189 fails: the standard lets accounts transfer nothing, and transfer to themselves; both are refused here. -/
theorem C189_zero_refuted : ∃ s, Reach Sft.cfg0 s ∧
    said (call Sft.cfg0 s (msg 1) (.transferFrom 1 2 0 0)) = none ∧
    said (call Sft.cfg0 s (msg 1) (.transferFrom 1 1 0 5)) = none ∧
    (said (call Sft.cfg0 s (msg 1) (.transferFrom 1 2 0 5))).isSome = true :=
  ⟨Sft.demo, Sft.demo_reach, by decide +kernel, by decide +kernel, by decide +kernel⟩

/-! ## C190 -/

theorem hearAll_append (t : Tok) (id : Nat) (a b : List (Nat × Log)) :
    hearAll t id (a ++ b) = hearAll (hearAll t id a) id b := by
  unfold hearAll
  rw [List.filter_append, List.map_append, List.foldl_append]

theorem hearAll_self (t : Tok) (id : Nat) (l : List Log) : hearAll t id (l.map (fun x => (id, x))) = l.foldl hear t := by
  unfold hearAll
  rw [List.filter_eq_self.mpr (by
    intro p hp
    obtain ⟨x, _, rfl⟩ := List.mem_map.mp hp
    simp), List.map_map]
  congr 1
  exact List.map_id l

theorem hearAll_other (t : Tok) {j id : Nat} (hj : j ≠ id) (l : List Log) : hearAll t j (l.map (fun x => (id, x))) = t := by
  unfold hearAll
  rw [List.filter_eq_nil_iff.mpr (by
    intro p hp
    obtain ⟨x, _, rfl⟩ := List.mem_map.mp hp
    simpa using fun h => hj h.symm)]
  rfl

theorem hear_uncapped (t : Tok) (x : Log) : uncapped (hear t x) = hear (uncapped t) x := by
  cases x <;> rfl

theorem fold_uncapped (l : List Log) : ∀ t, uncapped (l.foldl hear t) = l.foldl hear (uncapped t) := by
  induction l with
  | nil => intro t; rfl
  | cons x l ih => intro t; rw [List.foldl_cons, List.foldl_cons, ih, hear_uncapped]

theorem hearAll_uncapped (t : Tok) (id : Nat) (l : List (Nat × Log)) :
    uncapped (hearAll t id l) = hearAll (uncapped t) id l := fold_uncapped _ t

/-- The zero address has no tokens. -/
def NoZero (t : Tok) : Prop := ∀ n, t.bal n 0 = 0

/-- Nobody mints for the zero address, tokens are created without any issued, and nothing happens but calls of
contracts. -/
def Proper : Ev → Prop
  | .call _ (.mint dst _ _) => dst ≠ 0
  | .call _ (.mintBatch dst _ _) => dst ≠ 0
  | .call _ (.createToken initial _ _) => initial = 0
  | .call _ _ => True
  | .other _ => False

theorem heard_transfer {t t' : Tok} {caller src dst : Acct} {xs : List (Nat × Nat)} (h : Transfer t caller src dst xs t')
    (hs : src ≠ 0) (hd : dst ≠ 0) : t' = heard t src dst xs := by
  obtain ⟨_, _, _, _, rfl⟩ := h
  refine Tok.ext' (fun n a => ?_) (fun n => ?_) (fun _ => rfl) (fun _ _ => rfl) rfl (fun _ => rfl) (fun _ => rfl)
    (fun _ => rfl)
  · unfold heard
    dsimp only
    rw [if_neg hd, if_neg hs]
  · unfold heard
    dsimp only
    rw [if_neg hs, if_neg hd]; omega

theorem heard_burn {t t' : Tok} {caller src : Acct} {xs : List (Nat × Nat)} (h : Burn t caller src xs t') (hs : src ≠ 0) :
    t' = heard t src 0 xs := by
  obtain ⟨_, _, _, rfl⟩ := h
  refine Tok.ext' (fun n a => ?_) (fun n => ?_) (fun _ => rfl) (fun _ _ => rfl) rfl (fun _ => rfl) (fun _ => rfl)
    (fun _ => rfl)
  · unfold heard
    dsimp only
    rw [if_pos rfl, if_neg hs]
  · unfold heard
    dsimp only
    rw [if_neg hs, if_pos rfl]; omega

theorem heard_mint {t t' : Tok} {caller dst : Acct} {xs : List (Nat × Nat)} (h : Mint t caller dst xs t') (hd : dst ≠ 0) :
    t' = heard t 0 dst xs := by
  obtain ⟨_, _, _, rfl⟩ := h
  refine Tok.ext' (fun n a => ?_) (fun n => ?_) (fun _ => rfl) (fun _ _ => rfl) rfl (fun _ => rfl) (fun _ => rfl)
    (fun _ => rfl)
  · unfold heard
    dsimp only
    rw [if_neg hd, if_pos rfl]
  · unfold heard
    dsimp only
    rw [if_pos rfl, if_neg hd]; omega

theorem heard_nozero {t : Tok} (h : NoZero t) (src dst : Acct) (xs : List (Nat × Nat)) : NoZero (heard t src dst xs) := by
  intro n
  have h0 : (if src = 0 then t.bal else take t.bal src xs) n 0 = 0 := by
    split
    · exact h n
    · show (if 0 = src then t.bal n 0 - _ else t.bal n 0) = 0
      rw [h n]; split <;> omega
  unfold heard
  dsimp only
  split
  · exact h0
  · rename_i hd
    show (if 0 = dst then _ + _ else _) = 0
    rw [if_neg (Ne.symm hd)]
    exact h0

theorem NoZero.hear {t : Tok} (h : NoZero t) (x : Log) : NoZero (hear t x) := by
  cases x with
  | single _ src dst n q => exact heard_nozero h _ _ _
  | batch _ src dst ns qs => exact heard_nozero h _ _ _
  | _ => exact h

theorem NoZero.all {t : Tok} (h : NoZero t) (l : List Log) : NoZero (l.foldl Evm1155.hear t) := by
  induction l generalizing t with
  | nil => exact h
  | cons x l ih => exact ih (h.hear x)

/-- What a call changes, but for maximum supplies, is what its logs say. -/
theorem run_heard {c : Cfg} {s s' : St} (hr : Reach c s) {m : Msg} {k : Call} {l : List Log} {o : Out}
    (hp : Proper (.call m k)) (hz : NoZero (abs s m.coll)) (h : run c s m k = .ok (s', l, o)) :
    uncapped (abs s' m.coll) = uncapped (l.foldl hear (abs s m.coll)) := by
  have zero : ∀ {xs : List (Nat × Nat)} {x : Nat × Nat}, (∀ n, amountOf xs n ≤ (abs s m.coll).bal n 0) →
      0 < amountOf xs x.1 → False := by
    intro xs x h1 h2
    have := h1 x.1
    rw [hz x.1] at this
    omega
  have hstd := (run_std hr h).1
  cases k with
  | balanceOf a n => obtain ⟨h1, rfl, _⟩ := hstd; rw [h1]; rfl
  | balanceOfBatch as ns => obtain ⟨h1, rfl, _⟩ := hstd; rw [h1]; rfl
  | isApprovedForAll a p => obtain ⟨h1, rfl, _⟩ := hstd; rw [h1]; rfl
  | totalSupply n => obtain ⟨h1, rfl, _⟩ := hstd; rw [h1]; rfl
  | exist n => obtain ⟨h1, rfl, _⟩ := hstd; rw [h1]; rfl
  | owner => obtain ⟨h1, rfl, _⟩ := hstd; rw [h1]; rfl
  | setApprovalForAll p ok => obtain ⟨h1, rfl, _⟩ := hstd; rw [h1]; rfl
  | transferFrom src dst n q =>
    obtain ⟨h1, rfl, _⟩ := hstd
    have hs : src ≠ 0 := by
      rintro rfl
      simp only [run, serial, amount, Sft.safeTransfer, Sft.transfer, Sft.batch, Sft.transferOne, bind_ok, ensure_ok,
        pure_ok, Prod.mk.injEq] at h
      obtain ⟨_, _, _, _, _, _, s1, ⟨_, _, _, _, _, _, _, _, _, _, s2, ⟨_, h0, _⟩, _⟩, _⟩ := h
      refine zero (x := (n, q)) h1.2.2.1 ?_
      rw [amountOf_qty, Sft.qty_cons, if_pos rfl, Sft.qty_nil]
      exact Nat.pos_of_ne_zero h0
    rw [heard_transfer h1 hs h1.2.1]; rfl
  | batchTransferFrom src dst ns qs =>
    obtain ⟨_, h1, rfl, _⟩ := hstd
    have hs : src ≠ 0 := by
      rintro rfl
      simp only [run, pairs, Sft.safeTransfer, Sft.transfer, bind_ok, ensure_ok, pure_ok, Prod.mk.injEq] at h
      obtain ⟨_, ⟨_, _, _, _, _, _, rfl⟩, _, _, s1, ⟨_, _, _, _, _, hne, _, _, _, _, hb⟩, _⟩ := h
      cases hx : ns.zip qs with
      | nil => exact hne hx
      | cons x xs =>
        rw [hx] at hb h1
        simp only [Sft.batch, Sft.transferOne, bind_ok, ensure_ok] at hb
        obtain ⟨_, ⟨_, h0, _⟩, _⟩ := hb
        refine zero (x := x) h1.2.2.1 ?_
        rw [amountOf_qty, Sft.qty_cons, if_pos rfl]
        omega
    rw [heard_transfer h1 hs h1.2.1]; rfl
  | burn a n q =>
    obtain ⟨h1, rfl, _⟩ := hstd
    have hs : a ≠ 0 := by
      rintro rfl
      simp only [run, serial, amount, bind_ok, ensure_ok, pure_ok, Prod.mk.injEq] at h
      obtain ⟨_, _, _, _, s1, hb, _⟩ := h
      obtain ⟨_, ⟨x, _, h0⟩, _⟩ := burn_abs hr hb
      exact zero h1.2.1 h0
    rw [heard_burn h1 hs]; rfl
  | burnBatch a ns qs =>
    obtain ⟨_, h1, rfl, _⟩ := hstd
    have hs : a ≠ 0 := by
      rintro rfl
      simp only [run, pairs, bind_ok, ensure_ok, pure_ok, Prod.mk.injEq] at h
      obtain ⟨_, ⟨_, _, _, _, _, _, rfl⟩, s1, hb, _⟩ := h
      obtain ⟨_, ⟨x, _, h0⟩, _⟩ := burn_abs hr hb
      exact zero h1.2.1 h0
    rw [heard_burn h1 hs]; rfl
  | mint dst n q =>
    obtain ⟨h1, rfl, _⟩ := hstd
    rw [heard_mint h1 hp]; rfl
  | mintBatch dst ns qs =>
    obtain ⟨_, h1, rfl, _⟩ := hstd
    rw [heard_mint h1 hp]; rfl
  | createToken initial max rcv =>
    obtain ⟨_, _, n, hn, h1, rfl, _⟩ := hstd
    have hi : initial = 0 := hp
    subst hi
    rw [h1]
    have hsup : (abs s m.coll).supply n = 0 := by
      change (s.tok m.coll n).isSome = false at hn
      show ((s.tok m.coll n).map _).getD 0 = 0
      cases ht : s.tok m.coll n with
      | none => rfl
      | some t => rw [ht] at hn; cases hn
    refine Tok.ext' (fun x a => ?_) (fun x => ?_) (fun _ => rfl) (fun _ _ => rfl) rfl (fun _ => rfl) (fun _ => rfl)
      (fun _ => rfl)
    · show (if a = _ then (abs s m.coll).bal x a + amountOf [(n, 0)] x else (abs s m.coll).bal x a) = (abs s m.coll).bal x a
      have e : amountOf [(n, 0)] x = 0 := by
        rw [amountOf_qty, Sft.qty_cons, Sft.qty_nil]
        split <;> rfl
      rw [e, Nat.add_zero, ite_self]
    · show (if x = n then 0 else (abs s m.coll).supply x) = (abs s m.coll).supply x
      split
      · rename_i hx; rw [hx, hsup]
      · rfl
  | setMaxSupply n x =>
    obtain ⟨_, _, _, _, _, h1, rfl, _⟩ := hstd
    rw [h1]; rfl
  | togglePublicMint n on => obtain ⟨_, h1, rfl, _⟩ := hstd; rw [h1]; rfl
  | setMintFee n asset fee => obtain ⟨_, a, _, h1, rfl, _⟩ := hstd; rw [h1]; rfl
  | renounceOwnership => obtain ⟨_, h1, rfl, _⟩ := hstd; rw [h1]; rfl
  | transferOwnership new => obtain ⟨_, h1, rfl, _⟩ := hstd; rw [h1]; rfl

/-- A call is one or no operation of the pallet. -/
theorem run_reach {c : Cfg} {s s' : St} (hr : Reach c s) {m : Msg} {k : Call} {l : List Log} {o : Out}
    (h : run c s m k = .ok (s', l, o)) : Reach c s' := by
  cases k with
  | balanceOf a n =>
    simp only [run, serial, bind_ok, ensure_ok, pure_ok, Prod.mk.injEq] at h
    obtain ⟨_, _, rfl, _⟩ := h
    exact hr
  | balanceOfBatch as ns =>
    simp only [run, bind_ok, ensure_ok, pure_ok, Prod.mk.injEq] at h
    obtain ⟨_, _, _, _, rfl, _⟩ := h
    exact hr
  | isApprovedForAll a p =>
    simp only [run, Except.ok.injEq, Prod.mk.injEq] at h
    obtain ⟨rfl, _⟩ := h
    exact hr
  | totalSupply n =>
    simp only [run, serial, bind_ok, ensure_ok, pure_ok, Prod.mk.injEq] at h
    obtain ⟨_, _, rfl, _⟩ := h
    exact hr
  | exist n =>
    simp only [run, serial, bind_ok, ensure_ok, pure_ok, Prod.mk.injEq] at h
    obtain ⟨_, _, rfl, _⟩ := h
    exact hr
  | owner =>
    simp only [run, bind_ok, okOr_ok, pure_ok, Prod.mk.injEq] at h
    obtain ⟨k1, hk1, rfl, _⟩ := h
    exact hr
  | setApprovalForAll p ok =>
    simp only [run, bind_ok, pure_ok, Prod.mk.injEq] at h
    obtain ⟨s1, ht, rfl, _⟩ := h
    exact hr.step (op := .approveAll m.caller p m.coll ok) ht
  | transferFrom src dst n q =>
    simp only [run, serial, amount, bind_ok, ensure_ok, pure_ok, Prod.mk.injEq] at h
    obtain ⟨_, _, _, _, _, hd, s1, ht, rfl, _⟩ := h
    exact hr.step (op := .safeTransfer m.caller m.coll _ src dst) ht
  | batchTransferFrom src dst ns qs =>
    simp only [run, pairs, bind_ok, ensure_ok, pure_ok, Prod.mk.injEq] at h
    obtain ⟨_, ⟨_, _, _, _, _, hlen, rfl⟩, _, hd, s1, ht, rfl, _⟩ := h
    exact hr.step (op := .safeTransfer m.caller m.coll _ src dst) ht
  | burn a n q =>
    simp only [run, serial, amount, bind_ok, ensure_ok, pure_ok, Prod.mk.injEq] at h
    obtain ⟨_, _, _, _, s1, ht, rfl, _⟩ := h
    exact hr.step (op := .safeBurn m.caller m.coll _ a) ht
  | burnBatch a ns qs =>
    simp only [run, pairs, bind_ok, ensure_ok, pure_ok, Prod.mk.injEq] at h
    obtain ⟨_, ⟨_, _, _, _, _, hlen, rfl⟩, s1, ht, rfl, _⟩ := h
    exact hr.step (op := .safeBurn m.caller m.coll _ a) ht
  | mint dst n q =>
    simp only [run, serial, amount, bind_ok, ensure_ok, pure_ok, Prod.mk.injEq] at h
    obtain ⟨_, _, _, _, s1, ht, rfl, _⟩ := h
    exact hr.step (op := .mint m.caller m.coll _ (some dst)) ht
  | mintBatch dst ns qs =>
    simp only [run, pairs, bind_ok, ensure_ok, pure_ok, Prod.mk.injEq] at h
    obtain ⟨_, ⟨_, _, _, _, _, hlen, rfl⟩, s1, ht, rfl, _⟩ := h
    exact hr.step (op := .mint m.caller m.coll _ (some dst)) ht
  | createToken initial max rcv =>
    simp only [run, bind_ok, ensure_ok, okOr_ok, pure_ok, Prod.mk.injEq] at h
    obtain ⟨_, _, _, _, k1, hk1, s1, ht, rfl, _⟩ := h
    exact hr.step (op := .createToken m.caller m.coll _ _ _ _) ht
  | setMaxSupply n x =>
    simp only [run, serial, bind_ok, ensure_ok, pure_ok, Prod.mk.injEq] at h
    obtain ⟨_, _, _, _, s1, ht, rfl, _⟩ := h
    exact hr.step (op := .setMax m.caller m.coll n x) ht
  | togglePublicMint n on =>
    simp only [run, serial, bind_ok, ensure_ok, pure_ok, Prod.mk.injEq] at h
    obtain ⟨_, _, s1, ht, rfl, _⟩ := h
    exact hr.step (op := .setPubMint m.caller m.coll n _) ht
  | setMintFee n asset fee =>
    simp only [run, serial, bind_ok, ensure_ok, okOr_ok, pure_ok, Prod.mk.injEq] at h
    obtain ⟨_, _, a, ha, _, _, s1, ht, rfl, _⟩ := h
    exact hr.step (op := .setPubMint m.caller m.coll n _) ht
  | renounceOwnership =>
    simp only [run, bind_ok, pure_ok, Prod.mk.injEq] at h
    obtain ⟨s1, ht, rfl, _⟩ := h
    exact hr.step (op := .setOwner m.caller m.coll 0) ht
  | transferOwnership new =>
    simp only [run, bind_ok, pure_ok, Prod.mk.injEq] at h
    obtain ⟨s1, ht, rfl, _⟩ := h
    exact hr.step (op := .setOwner m.caller m.coll new) ht

theorem nozero_uncapped {t t' : Tok} (h : uncapped t' = uncapped t) (hz : NoZero t) : NoZero t' := by
  intro n
  have := congrArg (fun x => x.bal n 0) h
  exact this.trans (hz n)

/-- One event. -/
theorem next_heard {c : Cfg} {s : St} (hr : Reach c s) {e : Ev} (hp : Proper e) (id : Nat) (hz : ∀ j, NoZero (abs s j)) :
    Reach c (next c s e).1 ∧ uncapped (abs (next c s e).1 id) = uncapped (hearAll (abs s id) id (next c s e).2) ∧
    ∀ j, NoZero (abs (next c s e).1 j) := by
  cases e with
  | call m k =>
    cases hc : call c s m k with
    | none =>
      have e : next c s (.call m k) = (s, []) := by simp only [next, hc]
      rw [e]; exact ⟨hr, rfl, hz⟩
    | some r =>
      cases r with
      | error e =>
        have e : next c s (.call m k) = (s, []) := by simp only [next, hc]
        rw [e]; exact ⟨hr, rfl, hz⟩
      | ok x =>
        obtain ⟨s1, l, o⟩ := x
        have e : next c s (.call m k) = (s1, l.map (fun x => (m.coll, x))) := by simp only [next, hc]
        rw [e]
        obtain ⟨_, _, _, h⟩ := call_ok hc
        have h1 := run_heard hr hp (hz _) h
        have h2 := (run_std hr h).2
        refine ⟨run_reach hr h, ?_, fun j => ?_⟩
        · by_cases hj : id = m.coll
          · subst hj; rw [hearAll_self]; exact h1
          · rw [hearAll_other _ hj, h2 id hj]
        · by_cases hj : j = m.coll
          · subst hj; exact nozero_uncapped h1 ((hz _).all l)
          · rw [h2 j hj]; exact hz j
  | other op => exact hp.elim

/-- C190: whoever knows the contract of a collection and hears its logs knows it ever after: balances, supplies, operators,
owner and rules of minting are what the logs say. Missing: maximum supplies, tokens issued when they are created, tokens
minted for the zero address, and changes not made through contracts (`Proper`); see the refuted statements. -/
theorem C190_logs_partial {c : Cfg} : ∀ (es : List Ev) {s : St}, Reach c s →
    (∀ j n, (abs s j).bal n 0 = 0) → (∀ e ∈ es, Proper e) → ∀ id,
    uncapped (abs (runs c s es).1 id) = uncapped (hearAll (abs s id) id (runs c s es).2)
  | [], _, _, _, _, _ => rfl
  | e :: es, s, hr, hz, hp, id => by
    obtain ⟨h1, h2, h3⟩ := next_heard hr (hp e List.mem_cons_self) id hz
    show uncapped (abs (runs c (next c s e).1 es).1 id) =
      uncapped (hearAll (abs s id) id ((next c s e).2 ++ (runs c (next c s e).1 es).2))
    rw [hearAll_append, C190_logs_partial es h1 h3 (fun e he => hp e (List.mem_cons_of_mem _ he)) id, hearAll_uncapped,
      hearAll_uncapped, h2]

/-- Calls in the demonstration. -/
def demoEvs : List Ev :=
  [.call (msg 7) (.mint 8 1 3), .call (msg 9) (.batchTransferFrom 2 4 [0, 0] [15, 5]), .call (msg 1) (.createToken 0 9 0),
   .call (msg 1) (.mintBatch 6 [2, 1] [4, 5]), .call (msg 6) (.burn 6 2 1), .call (msg 6) (.burn 6 2 4),
   .call (msg 1) (.transferOwnership 4), .call (msg 4) (.togglePublicMint 1 false)]

/-- Non-vacuity: the logs of the demonstration. -/
example : (∀ e ∈ demoEvs, Proper e) ∧ (runs Sft.cfg0 Sft.demo demoEvs).2 =
    [(100, .single 7 0 8 1 3), (100, .batch 9 2 4 [0, 0] [15, 5]), (100, .created 2), (100, .batch 1 0 6 [2, 1] [4, 5]),
     (100, .single 6 6 0 2 1), (100, .ownership 1 4), (100, .publicMint 1 false)] ∧
    (abs (runs Sft.cfg0 Sft.demo demoEvs).1 100).bal 2 6 = 3 := by
  refine ⟨?_, by decide +kernel, by decide +kernel⟩
  intro e he
  simp only [demoEvs, List.mem_cons, List.not_mem_nil, or_false] at he
  rcases he with rfl | rfl | rfl | rfl | rfl | rfl | rfl | rfl <;> simp [Proper]

/-- C190 fails: two calls with the same logs, one of which gives account 6 forty of the new token. -/
theorem C190_created_refuted : ∃ s e e', Reach Sft.cfg0 s ∧ (next Sft.cfg0 s e).2 = [(100, .created 2)] ∧
    (next Sft.cfg0 s e').2 = [(100, .created 2)] ∧ (abs (next Sft.cfg0 s e).1 100).bal 2 6 = 40 ∧
    (abs (next Sft.cfg0 s e').1 100).bal 2 6 = 0 :=
  ⟨Sft.demo, .call (msg 1) (.createToken 40 0 6), .call (msg 1) (.createToken 0 0 6), Sft.demo_reach, by decide +kernel,
    by decide +kernel, by decide +kernel, by decide +kernel⟩

/-- C190 fails: two calls with the same logs, one of which limits token 1, the other token 2. -/
theorem C190_cap_refuted : ∃ s e e', Reach Sft.cfg0 s ∧ (next Sft.cfg0 s e).2 = [(100, .maxSupply 500)] ∧
    (next Sft.cfg0 s e').2 = [(100, .maxSupply 500)] ∧
    (abs (next Sft.cfg0 s e).1 100).cap 1 = some 500 ∧ (abs (next Sft.cfg0 s e).1 100).cap 2 = none ∧
    (abs (next Sft.cfg0 s e').1 100).cap 1 = none ∧ (abs (next Sft.cfg0 s e').1 100).cap 2 = some 500 := by
  refine ⟨Sft.exec Sft.cfg0 Sft.demo [.createToken 1 100 0 none none true], .call (msg 1) (.setMaxSupply 1 500),
    .call (msg 1) (.setMaxSupply 2 500), Sft.exec_reach _ Sft.demo_reach, by decide +kernel, by decide +kernel,
    by decide +kernel, by decide +kernel, by decide +kernel, by decide +kernel⟩

/-- C190 fails: tokens listed for sale disappear from the balance of the seller without a log. -/
theorem C190_listing_refuted : ∃ s e, Reach Sft.cfg0 s ∧ (next Sft.cfg0 s e).2 = [] ∧
    (abs s 100).bal 0 1 = 50 ∧ (abs (next Sft.cfg0 s e).1 100).bal 0 1 = 45 :=
  ⟨Sft.demo, .other (.reserve 100 0 5 1), Sft.demo_reach, by decide +kernel, by decide +kernel, by decide +kernel⟩

/-- C190 fails: a token minted for the zero address is, from the logs, created and destroyed at once, but it is counted. -/
theorem C190_zero_refuted : ∃ s e, Reach Sft.cfg0 s ∧ (next Sft.cfg0 s e).2 = [(100, .single 1 0 0 0 5)] ∧
    (abs (next Sft.cfg0 s e).1 100).supply 0 = 105 ∧
    (hearAll (abs s 100) 100 (next Sft.cfg0 s e).2).supply 0 = 100 :=
  ⟨Sft.demo, .call (msg 1) (.mint 0 0 5), Sft.demo_reach, by decide +kernel, by decide +kernel, by decide +kernel⟩

/-! ## C191 -/

/-- The functions that change something although they are let through in static calls. -/
def slips : Call → Bool
  | .createToken _ _ _ => true
  | .setMaxSupply _ _ => true
  | .renounceOwnership => true
  | .transferOwnership _ => true
  | _ => false

/-- C191: a static call of the contract changes nothing and leaves no log, and no function takes money. Missing: creation
of tokens, maximum supplies, and the owner of the contract. -/
theorem C191_erc1155_partial {c : Cfg} {s s' : St} {m : Msg} {k : Call} {l : List Log} {o : Out}
    (h : call c s m k = some (.ok (s', l, o))) :
    m.value = 0 ∧ (m.static = true → slips k = false → s' = s ∧ l = []) := by
  obtain ⟨_, h1, h2, h⟩ := call_ok h
  refine ⟨h2, fun hst hns => ?_⟩
  have hv : view k = true := by
    rcases h1 with h1 | h1
    · rw [hst] at h1; cases h1
    · exact h1
  cases k with
  | balanceOf a n =>
    simp only [run, serial, bind_ok, ensure_ok, pure_ok, Prod.mk.injEq] at h
    obtain ⟨_, _, rfl, rfl, _⟩ := h
    exact ⟨rfl, rfl⟩
  | balanceOfBatch as ns =>
    simp only [run, bind_ok, ensure_ok, pure_ok, Prod.mk.injEq] at h
    obtain ⟨_, _, _, _, rfl, rfl, _⟩ := h
    exact ⟨rfl, rfl⟩
  | isApprovedForAll a p =>
    simp only [run, Except.ok.injEq, Prod.mk.injEq] at h
    obtain ⟨rfl, rfl, _⟩ := h
    exact ⟨rfl, rfl⟩
  | totalSupply n =>
    simp only [run, serial, bind_ok, ensure_ok, pure_ok, Prod.mk.injEq] at h
    obtain ⟨_, _, rfl, rfl, _⟩ := h
    exact ⟨rfl, rfl⟩
  | exist n =>
    simp only [run, serial, bind_ok, ensure_ok, pure_ok, Prod.mk.injEq] at h
    obtain ⟨_, _, rfl, rfl, _⟩ := h
    exact ⟨rfl, rfl⟩
  | owner =>
    simp only [run, bind_ok, okOr_ok, pure_ok, Prod.mk.injEq] at h
    obtain ⟨k1, hk1, rfl, rfl, _⟩ := h
    exact ⟨rfl, rfl⟩
  | createToken _ _ _ => cases hns
  | setMaxSupply _ _ => cases hns
  | renounceOwnership => cases hns
  | transferOwnership _ => cases hns
  | setApprovalForAll _ _ => cases hv
  | transferFrom _ _ _ _ => cases hv
  | batchTransferFrom _ _ _ _ => cases hv
  | burn _ _ _ => cases hv
  | burnBatch _ _ _ => cases hv
  | mint _ _ _ => cases hv
  | mintBatch _ _ _ => cases hv
  | togglePublicMint _ _ => cases hv
  | setMintFee _ _ _ => cases hv

/-- Non-vacuity: a static call answers, and may not mint. -/
example : said (call Sft.cfg0 Sft.demo (smsg 1) (.balanceOf 1 0)) = some ([], .num 50) ∧
    said (call Sft.cfg0 Sft.demo (smsg 1) (.mint 1 0 1)) = none ∧
    (said (call Sft.cfg0 Sft.demo (msg 1) (.mint 1 0 1))).isSome = true ∧
    said (call Sft.cfg0 Sft.demo { msg 1 with value := 1 } (.balanceOf 1 0)) = none := by decide +kernel

/-- C191 fails: in static calls tokens are created, maximum supplies set, and the contract given away. -/
theorem C191_erc1155_refuted : ∃ s, Reach Sft.cfg0 s ∧
    (next Sft.cfg0 s (.call (smsg 1) (.createToken 40 0 6))).2 = [(100, .created 2)] ∧
    (abs (next Sft.cfg0 s (.call (smsg 1) (.createToken 40 0 6))).1 100).bal 2 6 = 40 ∧
    (abs (next Sft.cfg0 s (.call (smsg 1) (.setMaxSupply 1 500))).1 100).cap 1 = some 500 ∧
    (abs (next Sft.cfg0 s (.call (smsg 1) (.transferOwnership 4))).1 100).boss = 4 ∧
    (abs (next Sft.cfg0 s (.call (smsg 1) .renounceOwnership)).1 100).boss = 0 ∧ (abs s 100).boss = 1 :=
  ⟨Sft.demo, Sft.demo_reach, by decide +kernel, by decide +kernel, by decide +kernel, by decide +kernel,
    by decide +kernel, by decide +kernel⟩

/-! ## C193 -/

/-- C193: a collection made through the SFT contract is what was asked for: new, with that owner and those shares of sales
for those accounts, without tokens; nothing of any other collection changes. Missing: a share of more than a
hundred per cent is not refused but counts as a hundred. -/
theorem C193_sft_partial {c : Cfg} {s s' : St} (hr : Reach c s) {value : Nat} {static : Bool} {owner : Acct}
    {addrs : List Acct} {ents : List Nat} {id : Nat}
    (h : initialize1155 c s value static owner addrs ents = .ok (s', id)) :
    value = 0 ∧ static = false ∧ s.coll id = none ∧ (∀ j, j ≠ id → s'.coll j = s.coll j) ∧ s'.tok = s.tok ∧
    (∀ n, s'.tok id n = none) ∧
    ∃ k, s'.coll id = some k ∧ k.owner = owner ∧ (addrs = [] → k.royalties = none) ∧
      (addrs ≠ [] → k.royalties = some (addrs.zip (ents.map (fun e => min e 1000000))) ∧
        (ents.map (fun e => min e 1000000)).sum ≤ 1000000) := by
  simp only [initialize1155, Sft.createColl, bind_ok, ensure_ok, okOr_ok, pure_ok, Prod.mk.injEq] at h
  obtain ⟨_, h1, _, h2, _, hlen, _, _, id1, hid, s1, ⟨id2, hid2, _, hroy, _, _, rfl⟩, rfl, rfl⟩ := h
  rw [hid] at hid2; cases hid2
  have hfresh := hr.si.fresh hid
  refine ⟨h2, h1, hfresh, fun j hj => upd_ne _ _ hj, rfl, fun n => ?_, _, upd_same _ _ _, rfl, ?_, ?_⟩
  · show s.tok id1 n = none
    cases ht : s.tok id1 n with
    | none => rfl
    | some t =>
      obtain ⟨k0, h0, _⟩ := hr.si.below _ _ _ ht
      rw [hfresh] at h0; cases h0
  · intro ha; exact if_pos ha
  · intro ha
    have hmap : ents.map Evm721.permill = ents.map (fun e => min e 1000000) := by
      refine List.map_congr_left fun e _ => ?_
      unfold Evm721.permill U32
      omega
    have hr' : Evm721.royalties addrs ents = some (addrs.zip (ents.map (fun e => min e 1000000))) := by
      unfold Evm721.royalties
      rw [if_neg ha, hmap]
    refine ⟨hr', ?_⟩
    rw [hr'] at hroy
    unfold Nft.royaltiesOk at hroy
    simp only [Bool.and_eq_true, decide_eq_true_eq] at hroy
    have := hroy.2
    rw [List.map_snd_zip (by rw [List.length_map]; omega)] at this
    exact this

/-- Non-vacuity: another collection in the demonstration. -/
example : (initialize1155 Sft.cfg0 Sft.demo 0 false 5 [6, 7] [50000, 20000]).toOption.map
      (fun p => (p.2, (p.1.coll p.2).map (fun k => k.owner))) = some (1124, some 5) ∧
    (initialize1155 Sft.cfg0 Sft.demo 0 false 5 [6, 7] [500000, 500001]).isOk = false := by decide +kernel

/-- C193 fails: as with the NFT contract, a share of 500 per cent becomes one of a hundred. -/
theorem C193_sft_refuted : ∃ s, Reach Sft.cfg0 s ∧
    (initialize1155 Sft.cfg0 s 0 false 5 [6] [5000000]).toOption.map
      (fun p => (p.1.coll p.2).map (fun k => k.royalties)) = some (some (some [(6, 1000000)])) :=
  ⟨Sft.demo, Sft.demo_reach, by decide +kernel⟩

end Verif.Evm1155
