import Verif.Sft.Inv

/-!
# Properties of semi-fungible tokens: C28, C29, C76–C78
-/

namespace Verif.Sft

open Verif.Nft (Flags PubMint)

/-! ## Demonstration -/

def cfg0 : Cfg := ⟨3, 10, 100⟩

def g0 : St where
  coll := fun _ => none
  tok := fun _ _ => none
  flags := fun _ => ⟨true, true, true⟩
  pubMint := fun _ _ => ⟨false, none⟩
  nextId := 0
  forAll := fun _ _ _ => false
  ledger := ⟨fun _ a => if a = 7 then 5000 else 0, fun _ => 5000⟩

theorem genesis_g0 : Genesis g0 := ⟨fun _ => rfl, fun _ _ => rfl, rfl⟩

/-- Collection 100 of account 1: token 0 (at most 1000; 100 minted to 1, 30 of them reserved, 20 given to 2),
token 1 (minted publicly by account 7 for 3 each); account 2 lets account 9 act for it. -/
def demo : St := exec cfg0 g0
  [.createColl 1 none, .createToken 1 100 100 (some 1000) none true, .createToken 1 100 0 none none true,
   .reserve 100 0 30 1, .transfer 1 100 [(0, 15), (0, 5)] 2, .setPubMint 1 100 1 ⟨true, some (4, 3)⟩,
   .mint 7 100 [(1, 10), (1, 2)] none, .approveAll 2 9 100 true]

theorem demo_reach : Reach cfg0 demo := exec_reach _ (.init genesis_g0)

/-! ## C28 -/

/-- C28: for every token the free and reserved balances of all accounts add up to its issuance, the issuance
fits a `u128` and is at most the maximum, and each account has one entry. -/
theorem C28_sums {c : Cfg} {s : St} (h : Reach c s) {id n : Nat} {t : Tok} (ht : s.tok id n = some t) :
    TotalIs (fun a => free s id n a + res s id n a) (iss s id n) ∧ iss s id n < U128 ∧
    (∀ m, maxIss s id n = some m → iss s id n ≤ m) ∧ (t.owned.map Prod.fst).Nodup := by
  have hti := h.si.tok _ _ _ ht
  have e1 : ∀ a, free s id n a = freeOf t.owned a := fun a => by unfold free; rw [ht]; rfl
  have e2 : ∀ a, res s id n a = resOf t.owned a := fun a => by unfold res; rw [ht]; rfl
  have e3 : iss s id n = t.iss := by unfold iss; rw [ht]; rfl
  have e4 : maxIss s id n = t.max := by unfold maxIss; rw [ht]; rfl
  rw [e3, e4]
  exact ⟨hti.sum.congr (fun a => by rw [e1, e2]), hti.u128, hti.cap, hti.nodup⟩

/-- C28: a maximum, once set, never changes, and a token never disappears. -/
theorem C28_max_final {c : Cfg} {s s' : St} (h : Reach c s) {op : Op} (hs : step c s op = .ok s') {id n : Nat} {t : Tok}
    (ht : s.tok id n = some t) :
    (∃ t', s'.tok id n = some t') ∧ (∀ m, maxIss s id n = some m → maxIss s' id n = some m) := by
  have hsi := h.si
  have byMoves : ∀ {j : Nat} {m p : Nat → Acct → Nat} {i k : Nat → Nat}, Moves s s' j m p i k →
      (∃ t', s'.tok id n = some t') ∧ (∀ m, maxIss s id n = some m → maxIss s' id n = some m) := by
    intro j m p i k hm
    by_cases hj : id = j
    · subst hj
      refine ⟨?_, fun x hx => by rw [hm.max]; exact hx⟩
      have := hm.exist n
      rw [ht] at this
      exact Option.isSome_iff_exists.mp this
    · refine ⟨⟨t, by rw [hm.other id hj]; exact ht⟩, fun x hx => ?_⟩
      unfold maxIss at hx ⊢
      rw [hm.other id hj]; exact hx
  have bySame : s'.tok = s.tok → (∃ t', s'.tok id n = some t') ∧ (∀ m, maxIss s id n = some m → maxIss s' id n = some m) := by
    intro he
    unfold maxIss
    rw [he]
    exact ⟨⟨t, ht⟩, fun x hx => hx⟩
  have bySet : ∀ {j k : Nat} {u u' : Tok}, s.tok j k = some u → s'.tok = (setTok s j k u').tok →
      (∀ m, u.max = some m → u'.max = some m) →
      (∃ t', s'.tok id n = some t') ∧ (∀ m, maxIss s id n = some m → maxIss s' id n = some m) := by
    intro j k u u' hu he hm
    unfold maxIss
    rw [he]
    by_cases hj : id = j
    · subst hj
      by_cases hk : n = k
      · subst hk
        rw [tok_set_same, hu]
        exact ⟨⟨u', rfl⟩, hm⟩
      · rw [tok_set_ne _ _ _ _ hk]
        exact ⟨⟨t, ht⟩, fun x hx => hx⟩
    · rw [tok_set_other _ _ _ _ hj]
      exact ⟨⟨t, ht⟩, fun x hx => hx⟩
  cases op with
  | createColl o r =>
    simp only [step, createColl, bind_ok, ensure_ok, okOr_ok, pure_ok] at hs
    obtain ⟨_, _, _, _, _, _, rfl⟩ := hs
    exact bySame rfl
  | takeUuid =>
    simp only [step, bind_ok, okOr_ok, pure_ok] at hs
    obtain ⟨_, _, rfl⟩ := hs
    exact bySame rfl
  | createToken w j i m o e =>
    simp only [step, createToken, bind_ok, ensure_ok, okOr_ok, pure_ok] at hs
    obtain ⟨_, _, k, hk, _, _, _, _, _, _, _, _, rfl⟩ := hs
    unfold maxIss
    dsimp only
    by_cases hj : id = j
    · subst hj
      obtain ⟨k0, h0, h1⟩ := hsi.below _ _ _ ht
      rw [hk] at h0; cases h0
      rw [tok_set_ne _ _ _ _ (by omega)]
      exact ⟨⟨t, ht⟩, fun x hx => hx⟩
    · rw [tok_set_other _ _ _ _ hj]
      exact ⟨⟨t, ht⟩, fun x hx => hx⟩
  | mint w j xs o => exact byMoves (mint_ok hsi hs).2.2.2
  | transfer w j xs k => exact byMoves (transfer_ok hsi hs).2.2.2.2.2
  | burn w j xs => exact byMoves (burn_ok hsi hs).2.2.2.2
  | setOwner w j k =>
    simp only [step, setOwner, bind_ok, ensure_ok, okOr_ok, pure_ok] at hs
    obtain ⟨_, _, _, _, rfl⟩ := hs
    exact bySame rfl
  | setMax w j k m =>
    simp only [step, setMax, bind_ok, ensure_ok, okOr_ok, pure_ok] at hs
    obtain ⟨_, _, _, _, _, _, u, hu, _, hnone, _, _, rfl⟩ := hs
    exact bySet hu rfl (fun x hx => by rw [hnone] at hx; cases hx)
  | setRoyalties w j r =>
    simp only [step, setRoyalties, bind_ok, ensure_ok, okOr_ok, pure_ok] at hs
    obtain ⟨_, _, _, _, _, _, rfl⟩ := hs
    exact bySame rfl
  | setPubMint w j k p =>
    simp only [step, setPubMint, bind_ok, ensure_ok, okOr_ok, pure_ok] at hs
    obtain ⟨_, _, _, _, rfl⟩ := hs
    exact bySame rfl
  | setFlags w j f =>
    simp only [step, setFlags, bind_ok, ensure_ok, okOr_ok, pure_ok] at hs
    obtain ⟨_, _, _, _, rfl⟩ := hs
    exact bySame rfl
  | reserve j k a w =>
    simp only [step, reserve, bind_ok, okOr_ok, pure_ok] at hs
    obtain ⟨u, hu, o, _, rfl⟩ := hs
    exact bySet hu rfl (fun x hx => hx)
  | unreserve j k a w =>
    simp only [step, unreserve, bind_ok, okOr_ok, pure_ok] at hs
    obtain ⟨u, hu, o, _, rfl⟩ := hs
    exact bySet hu rfl (fun x hx => hx)
  | approveAll a b j ok =>
    simp only [step, approveAll, bind_ok, ensure_ok, pure_ok] at hs
    obtain ⟨_, _, rfl⟩ := hs
    exact bySame rfl
  | safeTransfer a j xs f x =>
    simp only [step, safeTransfer, bind_ok, ensure_ok] at hs
    obtain ⟨_, _, hs⟩ := hs
    exact byMoves (transfer_ok hsi hs).2.2.2.2.2
  | safeBurn a j xs f =>
    simp only [step, safeBurn, bind_ok, ensure_ok] at hs
    obtain ⟨_, _, hs⟩ := hs
    exact byMoves (burn_ok hsi hs).2.2.2.2
  | ledger L => cases hs; exact bySame rfl

/-- Non-vacuity: token 0 has 100 in circulation: 50 free and 30 reserved of account 1, 20 of account 2; 901
more would exceed the maximum, 900 do not. -/
example : iss demo 100 0 = 100 ∧ maxIss demo 100 0 = some 1000 ∧ free demo 100 0 1 = 50 ∧ res demo 100 0 1 = 30 ∧
    free demo 100 0 2 = 20 ∧ iss demo 100 1 = 12 ∧ free demo 100 1 7 = 12 ∧
    (step cfg0 demo (.mint 1 100 [(0, 900)] none)).isOk = true ∧
    (step cfg0 demo (.mint 1 100 [(0, 900), (0, 1)] none)).isOk = false := by decide +kernel

/-! ## C29 -/

/-- C29: a batch transfer moves exactly the listed quantities of the listed serials from the sender to the
receiver; reserved balances, issuance, other collections, settings and money do not change. A failed batch
has no successor state: it changes nothing. -/
theorem C29_transfer {c : Cfg} {s s' : St} (h : Reach c s) {who new : Acct} {id : Nat} {xs : List (Nat × Nat)}
    (hs : step c s (.transfer who id xs new) = .ok s') :
    who ≠ new ∧
    (∀ n a, free s' id n a + (if a = who then qty xs n else 0) = free s id n a + (if a = new then qty xs n else 0)) ∧
    (∀ n a, res s' id n a = res s id n a) ∧ (∀ n, iss s' id n = iss s id n) ∧ (∀ j, j ≠ id → s'.tok j = s.tok j) ∧
    s'.coll = s.coll ∧ s'.flags = s.flags ∧ s'.pubMint = s.pubMint ∧ s'.ledger = s.ledger ∧ s'.forAll = s.forAll := by
  obtain ⟨_, l, _, _, hne, m⟩ := transfer_ok h.si hs
  exact ⟨hne, m.free, m.res, m.iss, m.other, m.coll, m.flags, m.pubMint, l, m.forAll⟩

/-- C29: a batch burn destroys exactly the listed quantities, all from the free balance of the caller. -/
theorem C29_burn {c : Cfg} {s s' : St} (h : Reach c s) {who : Acct} {id : Nat} {xs : List (Nat × Nat)}
    (hs : step c s (.burn who id xs) = .ok s') :
    (∀ n a, free s' id n a + (if a = who then qty xs n else 0) = free s id n a) ∧
    (∀ n a, res s' id n a = res s id n a) ∧ (∀ n, iss s' id n + qty xs n = iss s id n) ∧
    (∀ j, j ≠ id → s'.tok j = s.tok j) ∧
    s'.coll = s.coll ∧ s'.flags = s.flags ∧ s'.pubMint = s.pubMint ∧ s'.ledger = s.ledger ∧ s'.forAll = s.forAll := by
  obtain ⟨_, l, _, _, m⟩ := burn_ok h.si hs
  exact ⟨m.free, m.res, m.iss, m.other, m.coll, m.flags, m.pubMint, l, m.forAll⟩

/-- C29: a batch mint creates exactly the listed quantities, for the receiver. -/
theorem C29_mint {c : Cfg} {s s' : St} (h : Reach c s) {who : Acct} {id : Nat} {xs : List (Nat × Nat)} {owner : Option Acct}
    (hs : step c s (.mint who id xs owner) = .ok s') :
    (∀ n a, free s' id n a = free s id n a + (if a = owner.getD who then qty xs n else 0)) ∧
    (∀ n a, res s' id n a = res s id n a) ∧ (∀ n, iss s' id n = iss s id n + qty xs n) ∧
    (∀ j, j ≠ id → s'.tok j = s.tok j) := by
  obtain ⟨_, _, _, m⟩ := mint_ok h.si hs
  exact ⟨m.free, m.res, m.iss, m.other⟩

theorem modFirst_succeeds {who : Acct} {f : Bal → Except Err Bal} : ∀ {o : List (Acct × Bal)} {b b' : Bal},
    lookup o who = some b → f b = .ok b' → ∃ o', modFirst who f o = .ok o'
  | [], _, _, h, _ => by cases h
  | e :: o, b, b', h, hf => by
    rw [lookup_cons] at h
    unfold modFirst
    split at h
    · rename_i he
      cases h
      rw [if_pos he, hf]
      exact ⟨_, rfl⟩
    · rename_i he
      rw [if_neg he]
      obtain ⟨o', ho⟩ := modFirst_succeeds h hf
      rw [ho]
      exact ⟨_, rfl⟩

theorem lookup_of_free {o : List (Acct × Bal)} {a : Acct} (h : 0 < freeOf o a) :
    ∃ b, lookup o a = some b ∧ b.free = freeOf o a ∧ b.res = resOf o a := by
  unfold freeOf resOf at *
  cases hl : lookup o a with
  | none => rw [hl] at h; exact absurd h (by simp)
  | some b => exact ⟨b, rfl, rfl, rfl⟩

theorem mem_iff_lookup {o : List (Acct × Bal)} {a : Acct} : a ∈ o.map Prod.fst ↔ ∃ b, lookup o a = some b := by
  constructor
  · intro h
    induction o with
    | nil => cases h
    | cons e o ih =>
      rw [lookup_cons]
      by_cases he : e.1 = a
      · rw [if_pos he]; exact ⟨_, rfl⟩
      · rw [if_neg he]
        rw [List.map_cons, List.mem_cons] at h
        exact ih (h.resolve_left (fun hx => he hx.symm))
  · rintro ⟨b, hb⟩; exact lookup_mem hb

theorem any_iff {o : List (Acct × Bal)} {a : Acct} :
    o.any (fun e => decide (e.1 = a)) = true ↔ a ∈ o.map Prod.fst := by
  rw [List.any_eq_true, List.mem_map]
  constructor
  · rintro ⟨e, he, hx⟩; exact ⟨e, he, by simpa using hx⟩
  · rintro ⟨e, he, hx⟩; exact ⟨e, he, by simpa using hx⟩

theorem removeBalance_succeeds {o : List (Acct × Bal)} {who : Acct} {amt : Nat} (h0 : 0 < amt) (h : amt ≤ freeOf o who) :
    ∃ o', removeBalance o who amt = .ok o' := by
  obtain ⟨b, hb, hf, _⟩ := lookup_of_free (show 0 < freeOf o who by omega)
  obtain ⟨o1, h1⟩ := modFirst_succeeds (f := remFree amt) hb
    (b' := { b with free := b.free - amt }) (by unfold remFree; rw [ensure_pos (by omega)]; rfl)
  exact ⟨dropEmpty o1 who, by unfold removeBalance; rw [h1]; rfl⟩

theorem removeBalance_keeps {o o' : List (Acct × Bal)} {who : Acct} {amt : Nat} (h : removeBalance o who amt = .ok o')
    {a : Acct} (ha : a ≠ who) : a ∈ o'.map Prod.fst ↔ a ∈ o.map Prod.fst := by
  simp only [removeBalance, bind_ok, pure_ok] at h
  obtain ⟨o1, h1, rfl⟩ := h
  obtain ⟨b, b', _, _, h4, _⟩ := modFirst_ok h1
  have : lookup (dropEmpty o1 who) a = lookup o a := by
    unfold dropEmpty
    split
    · rw [lookup_filter, if_neg ha, h4, if_neg ha]
    · rw [h4, if_neg ha]
  rw [mem_iff_lookup, mem_iff_lookup, this]

theorem addBalance_succeeds {max : Nat} {o : List (Acct × Bal)} {who : Acct} {amt : Nat}
    (h : freeOf o who + amt < U128) (hl : who ∈ o.map Prod.fst ∨ o.length < max) :
    ∃ o', addBalance max o who amt = .ok o' := by
  unfold addBalance
  by_cases hm : who ∈ o.map Prod.fst
  · rw [if_pos (any_iff.mpr hm)]
    obtain ⟨b, hb⟩ := mem_iff_lookup.mp hm
    refine modFirst_succeeds hb (b' := { b with free := b.free + amt }) ?_
    rw [(of_lookup hb).1] at h
    unfold addFree
    rw [ensure_pos h]; rfl
  · rw [if_neg (fun hx => hm (any_iff.mp hx)), ensure_pos (hl.resolve_left hm)]
    exact ⟨_, rfl⟩

theorem transferBalance_succeeds {c : Cfg} {t : Tok} (h : TI c t) {src dst : Acct} {amt : Nat} (hne : src ≠ dst)
    (h0 : 0 < amt) (hle : amt ≤ freeOf t.owned src)
    (hl : dst ∈ t.owned.map Prod.fst ∨ t.owned.length < c.maxOwners) :
    ∃ o', transferBalance c.maxOwners t.owned src dst amt = .ok o' ∧ dst ∈ o'.map Prod.fst := by
  obtain ⟨o1, h1⟩ := removeBalance_succeeds h0 hle
  obtain ⟨a1, a2, a3, a4, a5⟩ := removeBalance_ok h1 (h.lt src)
  have hd := a2 dst
  rw [if_neg (Ne.symm hne)] at hd
  have h2 := h.sum.le₂ hne
  have h3 := h.u128
  obtain ⟨o2, ho2⟩ := addBalance_succeeds (max := c.maxOwners) (o := o1) (who := dst) (amt := amt) (by omega)
    (by
      rcases hl with hl | hl
      · exact Or.inl ((removeBalance_keeps h1 (Ne.symm hne)).mpr hl)
      · exact Or.inr (by omega))
  refine ⟨o2, ?_, ?_⟩
  · unfold transferBalance
    rw [if_neg hne, h1]
    exact ho2
  · obtain ⟨b1, b2, b3, b4⟩ := addBalance_ok ho2
    obtain ⟨b, hb, _⟩ := lookup_of_free (o := o2) (a := dst) (by rw [b1, if_pos rfl]; omega)
    exact lookup_mem hb

theorem transfer_batch_succeeds {c : Cfg} {id : Nat} {who new : Acct} (hne : who ≠ new) : ∀ {xs : List (Nat × Nat)} {s : St},
    SI c s → (∀ x ∈ xs, x.2 ≠ 0) → (∀ x ∈ xs, ∃ t, s.tok id x.1 = some t) → (∀ n, qty xs n ≤ free s id n who) →
    (∀ n t, s.tok id n = some t → new ∈ t.owned.map Prod.fst ∨ t.owned.length < c.maxOwners) →
    ∃ s', batch (transferOne c id who new) s xs = .ok s'
  | [], s, _, _, _, _, _ => ⟨s, rfl⟩
  | x :: xs, s, hsi, hx, ht, hq, hl => by
    obtain ⟨t, htx⟩ := ht x List.mem_cons_self
    have hx0 := hx x List.mem_cons_self
    have hti := hsi.tok _ _ _ htx
    have hqx := hq x.1
    rw [qty_cons, if_pos rfl] at hqx
    have hfe : free s id x.1 who = freeOf t.owned who := by unfold free; rw [htx]; rfl
    obtain ⟨o, ho, hmem⟩ := transferBalance_succeeds hti hne (Nat.pos_of_ne_zero hx0) (by omega) (hl _ _ htx)
    have hone : transferOne c id who new s x = .ok (setTok s id x.1 { t with owned := o }) := by
      unfold transferOne
      rw [ensure_pos hx0, htx]
      simp only [okOr]
      change (transferBalance c.maxOwners t.owned who new x.2 >>= _) = _
      rw [ho]
      rfl
    obtain ⟨hsi1, _, m1⟩ := transferOne_ok hsi hne hone
    obtain ⟨s', hs'⟩ := transfer_batch_succeeds hne hsi1 (fun y hy => hx y (List.mem_cons_of_mem _ hy))
      (fun y hy => by
        obtain ⟨u, hu⟩ := ht y (List.mem_cons_of_mem _ hy)
        have := m1.exist y.1
        rw [hu] at this
        exact Option.isSome_iff_exists.mp this)
      (fun n => by
        have e := m1.free n who
        have e2 := hq n
        rw [qty_cons] at e2
        simp only [if_neg hne, if_true] at e
        split at e2 <;> simp_all <;> omega)
      (fun n u hu => by
        by_cases hn : n = x.1
        · subst hn
          rw [tok_set_same] at hu; cases hu
          exact Or.inl hmem
        · rw [tok_set_ne _ _ _ _ hn] at hu; exact hl _ _ hu)
    refine ⟨s', ?_⟩
    simp only [batch]
    rw [hone]
    exact hs'

/-- C29: a batch is refused only for a reason: with transfers on, quantities positive, all tokens existing and
the quantities covered by free balance, it succeeds as long as the owner lists have room for the receiver. -/
theorem C29_transfer_succeeds {c : Cfg} {s : St} (h : Reach c s) {who new : Acct} {id : Nat} {xs : List (Nat × Nat)}
    (hne : who ≠ new) (hf : (s.flags id).transferable = true) (h0 : xs ≠ []) (hlen : xs.length ≤ c.maxSerials)
    (hpos : ∀ x ∈ xs, x.2 ≠ 0) (hex : ∀ x ∈ xs, ∃ t, s.tok id x.1 = some t) (hq : ∀ n, qty xs n ≤ free s id n who)
    (hroom : ∀ n t, s.tok id n = some t → new ∈ t.owned.map Prod.fst ∨ t.owned.length < c.maxOwners) :
    ∃ s', step c s (.transfer who id xs new) = .ok s' := by
  obtain ⟨s', hs'⟩ := transfer_batch_succeeds hne h.si hpos hex hq hroom
  refine ⟨s', ?_⟩
  simp only [step, transfer]
  rw [ensure_pos hlen, ensure_pos h0, ensure_pos hne, ensure_pos hf]
  exact hs'

/-- Non-vacuity: account 1 can move its 50 free units in two pieces, not 51; the failing entry may come last. -/
example : (step cfg0 demo (.transfer 1 100 [(0, 20), (0, 30)] 5)).isOk = true ∧
    (step cfg0 demo (.transfer 1 100 [(0, 20), (0, 31)] 5)).isOk = false ∧
    (step cfg0 demo (.burn 1 100 [(0, 50)])).isOk = true ∧ (step cfg0 demo (.burn 1 100 [(0, 51)])).isOk = false := by
  decide +kernel

/-! ## Who can do what -/

/-- C76: no balance of an account goes down, free or reserved, unless the account itself, or an operator it has
approved, transfers or burns, or the marketplace reserves or releases for it; reserving and releasing keeps
the sum. -/
theorem C76_only_holder {c : Cfg} {s s' : St} (h : Reach c s) {op : Op} (hs : step c s op = .ok s') {id n : Nat} {a : Acct}
    (hlt : free s' id n a + res s' id n a < free s id n a + res s id n a) :
    (∃ xs new, op = .transfer a id xs new) ∨ (∃ xs, op = .burn a id xs) ∨
    (∃ caller, (caller = a ∨ s.forAll a id caller = true) ∧
      ((∃ xs new, op = .safeTransfer caller id xs a new) ∨ ∃ xs, op = .safeBurn caller id xs a)) := by
  have hsi := h.si
  have bySame : s'.tok = s.tok → False := by
    intro he
    unfold free res at hlt
    rw [he] at hlt
    exact lt_irrefl _ hlt
  have moved : ∀ {j : Nat} {w x : Acct} {xs : List (Nat × Nat)}, transfer c s w j xs x = .ok s' → j = id ∧ w = a := by
    intro j w x xs hx
    obtain ⟨_, _, _, _, _, m⟩ := transfer_ok hsi hx
    by_cases hj : id = j
    · subst hj
      refine ⟨rfl, ?_⟩
      by_contra hw
      have e1 := m.free n a
      have e2 := m.res n a
      rw [if_neg (fun hx => hw hx.symm)] at e1
      split at e1 <;> omega
    · exfalso
      unfold free res at hlt
      rw [m.other id hj] at hlt
      exact lt_irrefl _ hlt
  have burnt : ∀ {j : Nat} {w : Acct} {xs : List (Nat × Nat)}, burn c s w j xs = .ok s' → j = id ∧ w = a := by
    intro j w xs hx
    obtain ⟨_, _, _, _, m⟩ := burn_ok hsi hx
    by_cases hj : id = j
    · subst hj
      refine ⟨rfl, ?_⟩
      by_contra hw
      have e1 := m.free n a
      have e2 := m.res n a
      rw [if_neg (fun hx => hw hx.symm)] at e1
      omega
    · exfalso
      unfold free res at hlt
      rw [m.other id hj] at hlt
      exact lt_irrefl _ hlt
  have bySet : ∀ {j k : Nat} {u u' : Tok}, s.tok j k = some u → s'.tok = (setTok s j k u').tok →
      (∀ b, freeOf u'.owned b + resOf u'.owned b = freeOf u.owned b + resOf u.owned b) → False := by
    intro j k u u' hu he hm
    unfold free res at hlt
    rw [he] at hlt
    by_cases hj : id = j
    · subst hj
      by_cases hk : n = k
      · subst hk
        rw [tok_set_same, hu] at hlt
        have := hm a
        simp only [Option.map_some, Option.getD_some] at hlt
        omega
      · rw [tok_set_ne _ _ _ _ hk] at hlt; exact lt_irrefl _ hlt
    · rw [tok_set_other _ _ _ _ hj] at hlt; exact lt_irrefl _ hlt
  cases op with
  | createColl o r =>
    simp only [step, createColl, bind_ok, ensure_ok, okOr_ok, pure_ok] at hs
    obtain ⟨_, _, _, _, _, _, rfl⟩ := hs
    exact (bySame rfl).elim
  | takeUuid =>
    simp only [step, bind_ok, okOr_ok, pure_ok] at hs
    obtain ⟨_, _, rfl⟩ := hs
    exact (bySame rfl).elim
  | createToken w j i m o e =>
    simp only [step, createToken, bind_ok, ensure_ok, okOr_ok, pure_ok] at hs
    obtain ⟨_, _, k, hk, _, _, _, _, _, _, _, _, rfl⟩ := hs
    exfalso
    unfold free res at hlt
    dsimp only at hlt
    by_cases hj : id = j
    · subst hj
      by_cases hn : n = k.next
      · subst hn
        have : s.tok id k.next = none := by
          cases hx : s.tok id k.next with
          | none => rfl
          | some t =>
            obtain ⟨k0, h0, h1⟩ := hsi.below _ _ _ hx
            rw [hk] at h0; cases h0
            omega
        rw [this] at hlt
        simp at hlt
      · rw [tok_set_ne _ _ _ _ hn] at hlt; exact lt_irrefl _ hlt
    · rw [tok_set_other _ _ _ _ hj] at hlt; exact lt_irrefl _ hlt
  | mint w j xs o =>
    exfalso
    obtain ⟨_, _, _, m⟩ := mint_ok hsi hs
    by_cases hj : id = j
    · subst hj
      have e1 := m.free n a
      have e2 := m.res n a
      omega
    · unfold free res at hlt
      rw [m.other id hj] at hlt
      exact lt_irrefl _ hlt
  | transfer w j xs x =>
    obtain ⟨rfl, rfl⟩ := moved hs
    exact Or.inl ⟨xs, x, rfl⟩
  | burn w j xs =>
    obtain ⟨rfl, rfl⟩ := burnt hs
    exact Or.inr (Or.inl ⟨xs, rfl⟩)
  | setOwner w j k =>
    simp only [step, setOwner, bind_ok, ensure_ok, okOr_ok, pure_ok] at hs
    obtain ⟨_, _, _, _, rfl⟩ := hs
    exact (bySame rfl).elim
  | setMax w j k m =>
    simp only [step, setMax, bind_ok, ensure_ok, okOr_ok, pure_ok] at hs
    obtain ⟨_, _, _, _, _, _, u, hu, _, _, _, _, rfl⟩ := hs
    exact (bySet hu rfl (fun _ => rfl)).elim
  | setRoyalties w j r =>
    simp only [step, setRoyalties, bind_ok, ensure_ok, okOr_ok, pure_ok] at hs
    obtain ⟨_, _, _, _, _, _, rfl⟩ := hs
    exact (bySame rfl).elim
  | setPubMint w j k p =>
    simp only [step, setPubMint, bind_ok, ensure_ok, okOr_ok, pure_ok] at hs
    obtain ⟨_, _, _, _, rfl⟩ := hs
    exact (bySame rfl).elim
  | setFlags w j f =>
    simp only [step, setFlags, bind_ok, ensure_ok, okOr_ok, pure_ok] at hs
    obtain ⟨_, _, _, _, rfl⟩ := hs
    exact (bySame rfl).elim
  | reserve j k x w =>
    simp only [step, reserve, bind_ok, okOr_ok, pure_ok] at hs
    obtain ⟨u, hu, o, ho, rfl⟩ := hs
    obtain ⟨_, a2, a3, _⟩ := reserve_ok ho
    exact (bySet hu rfl (fun b => by have := a2 b; have := a3 b; dsimp only; omega)).elim
  | unreserve j k x w =>
    simp only [step, unreserve, bind_ok, okOr_ok, pure_ok] at hs
    obtain ⟨u, hu, o, ho, rfl⟩ := hs
    obtain ⟨_, a2, a3, _⟩ := unreserve_ok ho
    exact (bySet hu rfl (fun b => by have := a2 b; have := a3 b; dsimp only; omega)).elim
  | approveAll x b j ok =>
    simp only [step, approveAll, bind_ok, ensure_ok, pure_ok] at hs
    obtain ⟨_, _, rfl⟩ := hs
    exact (bySame rfl).elim
  | safeTransfer x j xs f y =>
    simp only [step, safeTransfer, bind_ok, ensure_ok] at hs
    obtain ⟨_, hau, hs⟩ := hs
    obtain ⟨rfl, rfl⟩ := moved hs
    refine Or.inr (Or.inr ⟨x, ?_, Or.inl ⟨xs, y, rfl⟩⟩)
    rcases hau with h1 | h1
    · exact Or.inl h1.symm
    · exact Or.inr h1
  | safeBurn x j xs f =>
    simp only [step, safeBurn, bind_ok, ensure_ok] at hs
    obtain ⟨_, hau, hs⟩ := hs
    obtain ⟨rfl, rfl⟩ := burnt hs
    refine Or.inr (Or.inr ⟨x, ?_, Or.inr ⟨xs, rfl⟩⟩)
    rcases hau with h1 | h1
    · exact Or.inl h1.symm
    · exact Or.inr h1
  | ledger L => cases hs; exact (bySame rfl).elim

/-- C76: reserving moves the amount from free to reserved and releasing moves it back; neither exceeds what is
there. -/
theorem C76_reserve {c : Cfg} {s s' : St} {id n amt : Nat} {who : Acct} :
    (step c s (.reserve id n amt who) = .ok s' →
      amt ≤ free s id n who ∧ ∀ a, free s' id n a + (if a = who then amt else 0) = free s id n a ∧
        res s' id n a = res s id n a + (if a = who then amt else 0)) ∧
    (step c s (.unreserve id n amt who) = .ok s' →
      amt ≤ res s id n who ∧ ∀ a, free s' id n a = free s id n a + (if a = who then amt else 0) ∧
        res s' id n a + (if a = who then amt else 0) = res s id n a) := by
  constructor
  · intro hs
    simp only [step, reserve, bind_ok, okOr_ok, pure_ok] at hs
    obtain ⟨u, hu, o, ho, rfl⟩ := hs
    obtain ⟨a1, a2, a3, _⟩ := reserve_ok ho
    unfold free res
    rw [hu, tok_set_same]
    exact ⟨a1, fun a => ⟨a2 a, a3 a⟩⟩
  · intro hs
    simp only [step, unreserve, bind_ok, okOr_ok, pure_ok] at hs
    obtain ⟨u, hu, o, ho, rfl⟩ := hs
    obtain ⟨a1, a2, a3, _⟩ := unreserve_ok ho
    unfold free res
    rw [hu, tok_set_same]
    exact ⟨a1, fun a => ⟨a2 a, a3 a⟩⟩

/-- Non-vacuity: account 9 can move tokens of account 2, account 8 cannot; at most 30 can be released. -/
example : (step cfg0 demo (.safeTransfer 9 100 [(0, 20)] 2 8)).isOk = true ∧
    (step cfg0 demo (.safeTransfer 8 100 [(0, 20)] 2 8)).isOk = false ∧
    (step cfg0 demo (.unreserve 100 0 30 1)).isOk = true ∧ (step cfg0 demo (.unreserve 100 0 31 1)).isOk = false := by
  decide +kernel

/-! ## Mint fees and switches -/

/-- What a batch costs in an asset, at the prices of the public mint settings. -/
def cost (s : St) (id : Nat) (a : AssetId) : List (Nat × Nat) → Nat
  | [] => 0
  | x :: xs => (match (s.pubMint id x.1).price with | some (b, p) => if b = a then p * x.2 else 0 | none => 0) + cost s id a xs

/-- No single fee of the batch exceeds a `u128`. -/
def FeesFit (s : St) (id : Nat) (xs : List (Nat × Nat)) : Prop :=
  ∀ x ∈ xs, ∀ b p, (s.pubMint id x.1).price = some (b, p) → p * x.2 < U128

theorem cost_congr {s s' : St} (h : s'.pubMint = s.pubMint) (id : Nat) (a : AssetId) : ∀ xs, cost s' id a xs = cost s id a xs
  | [] => rfl
  | x :: xs => by unfold cost; rw [cost_congr h id a xs, h]

theorem mint_batch_fee {c : Cfg} {id : Nat} {k : Coll} {who owner : Acct} : ∀ {xs : List (Nat × Nat)} {s s' : St},
    batch (mintOne c id k who owner) s xs = .ok s' →
    (k.owner = who → s'.ledger = s.ledger) ∧
    (k.owner ≠ who → (∀ x ∈ xs, (s.pubMint id x.1).enabled = true) ∧ (FeesFit s id xs →
      s'.ledger.iss = s.ledger.iss ∧ ∀ a y, s'.ledger.bal a y + (if y = who then cost s id a xs else 0) =
        s.ledger.bal a y + (if y = k.owner then cost s id a xs else 0)))
  | [], s, s', hs => by
    cases hs
    exact ⟨fun _ => rfl, fun _ => ⟨fun x hx => (List.not_mem_nil hx).elim, fun _ => ⟨rfl, fun a y => by simp [cost]⟩⟩⟩
  | x :: xs, s, s', hs => by
    simp only [batch, bind_ok] at hs
    obtain ⟨s1, h1, h2⟩ := hs
    have ih := mint_batch_fee h2
    simp only [mintOne, bind_ok, ensure_ok, okOr_ok, pure_ok] at h1
    obtain ⟨_, _, L, hL, _, hau, t, _, _, _, _, _, o, _, rfl⟩ := h1
    have hpm : ({ setTok s id x.1 { t with iss := t.iss + x.2, owned := o } with ledger := L } : St).pubMint = s.pubMint := rfl
    constructor
    · intro hw
      rw [ih.1 hw]
      unfold maybeCharge at hL
      rw [if_neg (fun hx => hx.2 hw)] at hL
      cases hL; rfl
    · intro hw
      obtain ⟨ih1, ih2⟩ := ih.2 hw
      have hen := hau.resolve_left hw
      refine ⟨fun y hy => ?_, fun hfit => ?_⟩
      · rcases List.mem_cons.mp hy with rfl | hy
        · exact hen
        · exact ih1 y hy
      · obtain ⟨j1, j2⟩ := ih2 (fun y hy => hfit y (List.mem_cons_of_mem _ hy))
        unfold maybeCharge at hL
        rw [if_pos ⟨hen, hw⟩] at hL
        unfold chargeFee at hL
        have hfx := hfit x List.mem_cons_self
        cases hp : (s.pubMint id x.1).price with
        | none =>
          rw [hp] at hL
          cases hL
          refine ⟨j1, fun a y => ?_⟩
          have e := j2 a y
          rw [cost_congr hpm] at e
          unfold cost
          rw [hp]
          simp only [Nat.zero_add]
          exact e
        | some bp =>
          obtain ⟨b, p⟩ := bp
          rw [hp] at hL
          simp only at hL
          have := hfx b p hp
          rw [Nat.min_eq_left (by omega)] at hL
          obtain ⟨_, t2, t3, t4⟩ := Ledger.transfer_ok hL
          refine ⟨j1.trans t2, fun a y => ?_⟩
          have e := j2 a y
          rw [cost_congr hpm] at e
          dsimp only at e
          unfold cost
          rw [hp]
          simp only
          by_cases hb : b = a
          · subst hb
            have e2 := t4 y
            rw [if_pos rfl]
            by_cases hy1 : y = who
            · rw [if_pos hy1] at e e2 ⊢
              by_cases hy2 : y = k.owner
              · exact absurd (hy2.symm.trans hy1) hw
              · rw [if_neg hy2] at e e2 ⊢; omega
            · rw [if_neg hy1] at e e2 ⊢
              by_cases hy2 : y = k.owner
              · rw [if_pos hy2] at e e2 ⊢; omega
              · rw [if_neg hy2] at e e2 ⊢; omega
          · rw [if_neg hb, Nat.zero_add]
            rw [t3 a (fun hx => hb hx.symm)] at e
            exact e

/-- C77: the owner of a collection mints for free; anybody else only mints tokens for which public minting is
on, and pays for each unit the price of its token, all of it to the collection owner. -/
theorem C77_mint_fee {c : Cfg} {s s' : St} {who : Acct} {id : Nat} {xs : List (Nat × Nat)} {owner : Option Acct}
    (hs : step c s (.mint who id xs owner) = .ok s') :
    ∃ k, s.coll id = some k ∧ (k.owner = who → s'.ledger = s.ledger) ∧
      (k.owner ≠ who → (∀ x ∈ xs, (s.pubMint id x.1).enabled = true) ∧ (FeesFit s id xs →
        s'.ledger.iss = s.ledger.iss ∧ ∀ a y, s'.ledger.bal a y + (if y = who then cost s id a xs else 0) =
          s.ledger.bal a y + (if y = k.owner then cost s id a xs else 0))) := by
  simp only [step, mint, bind_ok, ensure_ok, okOr_ok] at hs
  obtain ⟨_, _, _, _, k, hk, _, _, h3⟩ := hs
  exact ⟨k, hk, mint_batch_fee h3⟩

/-- Non-vacuity: account 7 paid 3 for each of its 12 units to account 1; it cannot mint token 0. -/
example : demo.ledger.bal 4 7 = 5000 - 36 ∧ demo.ledger.bal 4 1 = 36 ∧ cost demo 100 4 [(1, 10), (1, 2)] = 36 ∧
    (step cfg0 demo (.mint 7 100 [(0, 1)] none)).isOk = false := by decide +kernel

/-- C78: while transfers, burning or minting of a collection are switched off, nobody's balance of its tokens
goes down to the benefit of another, no token is destroyed, none is minted. -/
theorem C78_switched_off {c : Cfg} {s s' : St} (h : Reach c s) {op : Op} (hs : step c s op = .ok s') {id : Nat} :
    ((s.flags id).transferable = false → (s.flags id).burnable = false → ∀ n a,
      free s id n a + res s id n a ≤ free s' id n a + res s' id n a) ∧
    ((s.flags id).burnable = false → ∀ n, iss s id n ≤ iss s' id n) ∧
    ((s.flags id).mintable = false → ∀ n t, s.tok id n = some t → iss s' id n ≤ iss s id n) := by
  have hsi := h.si
  refine ⟨?_, ?_, ?_⟩
  · intro h1 h2 n a
    by_contra hlt
    have notr : ∀ {w x : Acct} {xs : List (Nat × Nat)}, transfer c s w id xs x ≠ .ok s' := by
      intro w x xs hx
      have := (transfer_ok hsi hx).2.2.1
      rw [h1] at this; cases this
    have nobu : ∀ {w : Acct} {xs : List (Nat × Nat)}, burn c s w id xs ≠ .ok s' := by
      intro w xs hx
      have := (burn_ok hsi hx).2.2.1
      rw [h2] at this; cases this
    have hlt : free s' id n a + res s' id n a < free s id n a + res s id n a := by omega
    rcases C76_only_holder h hs hlt with ⟨xs, new, rfl⟩ | ⟨xs, rfl⟩ | ⟨caller, _, ⟨xs, new, rfl⟩ | ⟨xs, rfl⟩⟩
    · exact notr hs
    · exact nobu hs
    · simp only [step, safeTransfer, bind_ok, ensure_ok] at hs
      obtain ⟨_, _, hs⟩ := hs
      exact notr hs
    · simp only [step, safeBurn, bind_ok, ensure_ok] at hs
      obtain ⟨_, _, hs⟩ := hs
      exact nobu hs
  · intro h2 n
    have burnt : ∀ {j : Nat} {w : Acct} {xs : List (Nat × Nat)}, burn c s w j xs = .ok s' → iss s id n ≤ iss s' id n := by
      intro j w xs hx
      obtain ⟨_, _, hf, _, m⟩ := burn_ok hsi hx
      by_cases hj : id = j
      · subst hj; rw [h2] at hf; cases hf
      · unfold iss; rw [m.other id hj]
    have moved : ∀ {j : Nat} {w x : Acct} {xs : List (Nat × Nat)}, transfer c s w j xs x = .ok s' → iss s id n ≤ iss s' id n := by
      intro j w x xs hx
      obtain ⟨_, _, hf, _, _, m⟩ := transfer_ok hsi hx
      by_cases hj : id = j
      · subst hj; have := m.iss n; omega
      · unfold iss; rw [m.other id hj]
    have bySet : ∀ {j k : Nat} {u u' : Tok}, s.tok j k = some u → s'.tok = (setTok s j k u').tok → u'.iss = u.iss →
        iss s id n ≤ iss s' id n := by
      intro j k u u' hu he hm
      unfold iss
      rw [he]
      by_cases hj : id = j
      · subst hj
        by_cases hk : n = k
        · subst hk
          rw [tok_set_same, hu]
          simp [hm]
        · rw [tok_set_ne _ _ _ _ hk]
      · rw [tok_set_other _ _ _ _ hj]
    cases op with
    | createColl o r =>
      simp only [step, createColl, bind_ok, ensure_ok, okOr_ok, pure_ok] at hs
      obtain ⟨_, _, _, _, _, _, rfl⟩ := hs
      exact le_refl _
    | takeUuid =>
      simp only [step, bind_ok, okOr_ok, pure_ok] at hs
      obtain ⟨_, _, rfl⟩ := hs
      exact le_refl _
    | createToken w j i m o e =>
      simp only [step, createToken, bind_ok, ensure_ok, okOr_ok, pure_ok] at hs
      obtain ⟨_, _, k, hk, _, _, _, _, _, _, _, _, rfl⟩ := hs
      unfold iss
      dsimp only
      by_cases hj : id = j
      · subst hj
        by_cases hn : n = k.next
        · subst hn
          have : s.tok id k.next = none := by
            cases hx : s.tok id k.next with
            | none => rfl
            | some t =>
              obtain ⟨k0, h0, h1⟩ := hsi.below _ _ _ hx
              rw [hk] at h0; cases h0
              omega
          rw [this]
          simp
        · rw [tok_set_ne _ _ _ _ hn]
      · rw [tok_set_other _ _ _ _ hj]
    | mint w j xs o =>
      obtain ⟨_, _, _, m⟩ := mint_ok hsi hs
      by_cases hj : id = j
      · subst hj; have := m.iss n; omega
      · unfold iss; rw [m.other id hj]
    | transfer w j xs x => exact moved hs
    | burn w j xs => exact burnt hs
    | setOwner w j k =>
      simp only [step, setOwner, bind_ok, ensure_ok, okOr_ok, pure_ok] at hs
      obtain ⟨_, _, _, _, rfl⟩ := hs
      exact le_refl _
    | setMax w j k m =>
      simp only [step, setMax, bind_ok, ensure_ok, okOr_ok, pure_ok] at hs
      obtain ⟨_, _, _, _, _, _, u, hu, _, _, _, _, rfl⟩ := hs
      exact bySet hu rfl rfl
    | setRoyalties w j r =>
      simp only [step, setRoyalties, bind_ok, ensure_ok, okOr_ok, pure_ok] at hs
      obtain ⟨_, _, _, _, _, _, rfl⟩ := hs
      exact le_refl _
    | setPubMint w j k p =>
      simp only [step, setPubMint, bind_ok, ensure_ok, okOr_ok, pure_ok] at hs
      obtain ⟨_, _, _, _, rfl⟩ := hs
      exact le_refl _
    | setFlags w j f =>
      simp only [step, setFlags, bind_ok, ensure_ok, okOr_ok, pure_ok] at hs
      obtain ⟨_, _, _, _, rfl⟩ := hs
      exact le_refl _
    | reserve j k x w =>
      simp only [step, reserve, bind_ok, okOr_ok, pure_ok] at hs
      obtain ⟨u, hu, o, ho, rfl⟩ := hs
      exact bySet hu rfl rfl
    | unreserve j k x w =>
      simp only [step, unreserve, bind_ok, okOr_ok, pure_ok] at hs
      obtain ⟨u, hu, o, ho, rfl⟩ := hs
      exact bySet hu rfl rfl
    | approveAll x b j ok =>
      simp only [step, approveAll, bind_ok, ensure_ok, pure_ok] at hs
      obtain ⟨_, _, rfl⟩ := hs
      exact le_refl _
    | safeTransfer x j xs f y =>
      simp only [step, safeTransfer, bind_ok, ensure_ok] at hs
      obtain ⟨_, _, hs⟩ := hs
      exact moved hs
    | safeBurn x j xs f =>
      simp only [step, safeBurn, bind_ok, ensure_ok] at hs
      obtain ⟨_, _, hs⟩ := hs
      exact burnt hs
    | ledger L => cases hs; exact le_refl _
  · intro h3 n t ht
    have burnt : ∀ {j : Nat} {w : Acct} {xs : List (Nat × Nat)}, burn c s w j xs = .ok s' → iss s' id n ≤ iss s id n := by
      intro j w xs hx
      obtain ⟨_, _, hf, _, m⟩ := burn_ok hsi hx
      by_cases hj : id = j
      · subst hj; have := m.iss n; omega
      · unfold iss; rw [m.other id hj]
    have moved : ∀ {j : Nat} {w x : Acct} {xs : List (Nat × Nat)}, transfer c s w j xs x = .ok s' → iss s' id n ≤ iss s id n := by
      intro j w x xs hx
      obtain ⟨_, _, hf, _, _, m⟩ := transfer_ok hsi hx
      by_cases hj : id = j
      · subst hj; have := m.iss n; omega
      · unfold iss; rw [m.other id hj]
    have bySet : ∀ {j k : Nat} {u u' : Tok}, s.tok j k = some u → s'.tok = (setTok s j k u').tok → u'.iss = u.iss →
        iss s' id n ≤ iss s id n := by
      intro j k u u' hu he hm
      unfold iss
      rw [he]
      by_cases hj : id = j
      · subst hj
        by_cases hk : n = k
        · subst hk
          rw [tok_set_same, hu]
          simp [hm]
        · rw [tok_set_ne _ _ _ _ hk]
      · rw [tok_set_other _ _ _ _ hj]
    cases op with
    | createColl o r =>
      simp only [step, createColl, bind_ok, ensure_ok, okOr_ok, pure_ok] at hs
      obtain ⟨_, _, _, _, _, _, rfl⟩ := hs
      exact le_refl _
    | takeUuid =>
      simp only [step, bind_ok, okOr_ok, pure_ok] at hs
      obtain ⟨_, _, rfl⟩ := hs
      exact le_refl _
    | createToken w j i m o e =>
      simp only [step, createToken, bind_ok, ensure_ok, okOr_ok, pure_ok] at hs
      obtain ⟨_, _, k, hk, _, _, _, _, _, _, _, _, rfl⟩ := hs
      unfold iss
      dsimp only
      by_cases hj : id = j
      · subst hj
        obtain ⟨k0, h0, h1⟩ := hsi.below _ _ _ ht
        rw [hk] at h0; cases h0
        rw [tok_set_ne _ _ _ _ (by omega)]
      · rw [tok_set_other _ _ _ _ hj]
    | mint w j xs o =>
      obtain ⟨_, hf, _, m⟩ := mint_ok hsi hs
      by_cases hj : id = j
      · subst hj; rw [h3] at hf; cases hf
      · unfold iss; rw [m.other id hj]
    | transfer w j xs x => exact moved hs
    | burn w j xs => exact burnt hs
    | setOwner w j k =>
      simp only [step, setOwner, bind_ok, ensure_ok, okOr_ok, pure_ok] at hs
      obtain ⟨_, _, _, _, rfl⟩ := hs
      exact le_refl _
    | setMax w j k m =>
      simp only [step, setMax, bind_ok, ensure_ok, okOr_ok, pure_ok] at hs
      obtain ⟨_, _, _, _, _, _, u, hu, _, _, _, _, rfl⟩ := hs
      exact bySet hu rfl rfl
    | setRoyalties w j r =>
      simp only [step, setRoyalties, bind_ok, ensure_ok, okOr_ok, pure_ok] at hs
      obtain ⟨_, _, _, _, _, _, rfl⟩ := hs
      exact le_refl _
    | setPubMint w j k p =>
      simp only [step, setPubMint, bind_ok, ensure_ok, okOr_ok, pure_ok] at hs
      obtain ⟨_, _, _, _, rfl⟩ := hs
      exact le_refl _
    | setFlags w j f =>
      simp only [step, setFlags, bind_ok, ensure_ok, okOr_ok, pure_ok] at hs
      obtain ⟨_, _, _, _, rfl⟩ := hs
      exact le_refl _
    | reserve j k x w =>
      simp only [step, reserve, bind_ok, okOr_ok, pure_ok] at hs
      obtain ⟨u, hu, o, ho, rfl⟩ := hs
      exact bySet hu rfl rfl
    | unreserve j k x w =>
      simp only [step, unreserve, bind_ok, okOr_ok, pure_ok] at hs
      obtain ⟨u, hu, o, ho, rfl⟩ := hs
      exact bySet hu rfl rfl
    | approveAll x b j ok =>
      simp only [step, approveAll, bind_ok, ensure_ok, pure_ok] at hs
      obtain ⟨_, _, rfl⟩ := hs
      exact le_refl _
    | safeTransfer x j xs f y =>
      simp only [step, safeTransfer, bind_ok, ensure_ok] at hs
      obtain ⟨_, _, hs⟩ := hs
      exact moved hs
    | safeBurn x j xs f =>
      simp only [step, safeBurn, bind_ok, ensure_ok] at hs
      obtain ⟨_, _, hs⟩ := hs
      exact burnt hs
    | ledger L => cases hs; exact le_refl _

/-- Non-vacuity: with everything switched off account 1 can do none of these. -/
example : (step cfg0 demo (.setFlags 1 100 ⟨false, false, false⟩)).isOk = true ∧
    ([Op.transfer 1 100 [(0, 1)] 3, .burn 1 100 [(0, 1)], .mint 1 100 [(0, 1)] none].map (fun op =>
      ((step cfg0 demo op).isOk, (step cfg0 (exec cfg0 demo [.setFlags 1 100 ⟨false, false, false⟩]) op).isOk))) =
      [(true, false), (true, false), (true, false)] := by decide +kernel

end Verif.Sft
