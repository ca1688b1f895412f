import Verif.Sft.Lemmas
import Verif.Nft.Inv

/-!
# Invariant of the SFT pallet and the effect of batches
-/

namespace Verif.Sft

/-! ## Vocabulary of the properties -/

/-- Free balance of an account of token `n` of collection `id`; zero for a token that does not exist. -/
def free (s : St) (id n : Nat) (a : Acct) : Nat := ((s.tok id n).map (fun t => freeOf t.owned a)).getD 0

/-- Reserved balance. -/
def res (s : St) (id n : Nat) (a : Acct) : Nat := ((s.tok id n).map (fun t => resOf t.owned a)).getD 0

/-- Issuance. -/
def iss (s : St) (id n : Nat) : Nat := ((s.tok id n).map Tok.iss).getD 0

/-- Maximum issuance. -/
def maxIss (s : St) (id n : Nat) : Option Nat := (s.tok id n).bind Tok.max

/-- The quantity a batch lists for a serial number, over all its entries. -/
def qty (xs : List (Nat × Nat)) (n : Nat) : Nat := ((xs.filter (fun x => decide (x.1 = n))).map Prod.snd).sum

theorem qty_nil (n : Nat) : qty [] n = 0 := rfl

theorem qty_cons (x : Nat × Nat) (xs : List (Nat × Nat)) (n : Nat) :
    qty (x :: xs) n = (if n = x.1 then x.2 else 0) + qty xs n := by
  unfold qty
  rw [List.filter_cons]
  by_cases h : x.1 = n
  · rw [if_pos (by simpa using h), if_pos h.symm, List.map_cons, List.sum_cons]
  · rw [if_neg (by simpa using h), if_neg (fun hx => h hx.symm), Nat.zero_add]

/-! ## Effects -/

/-- Balances of collection `id` change by `minus` and `plus`, issuance by `im` and `ip`; nothing else changes but
possibly the ledger. -/
structure Moves (s s' : St) (id : Nat) (minus plus : Nat → Acct → Nat) (im ip : Nat → Nat) : Prop where
  free : ∀ n a, free s' id n a + minus n a = free s id n a + plus n a
  res : ∀ n a, res s' id n a = res s id n a
  iss : ∀ n, iss s' id n + im n = iss s id n + ip n
  exist : ∀ n, (s'.tok id n).isSome = (s.tok id n).isSome
  max : ∀ n, maxIss s' id n = maxIss s id n
  other : ∀ j, j ≠ id → s'.tok j = s.tok j
  coll : s'.coll = s.coll
  flags : s'.flags = s.flags
  pubMint : s'.pubMint = s.pubMint
  nextId : s'.nextId = s.nextId
  forAll : s'.forAll = s.forAll

theorem Moves.refl (s : St) (id : Nat) : Moves s s id (fun _ _ => 0) (fun _ _ => 0) (fun _ => 0) (fun _ => 0) :=
  ⟨fun _ _ => rfl, fun _ _ => rfl, fun _ => rfl, fun _ => rfl, fun _ => rfl, fun _ _ => rfl, rfl, rfl, rfl, rfl, rfl⟩

theorem Moves.trans {s1 s2 s3 : St} {id : Nat} {m1 p1 m2 p2 : Nat → Acct → Nat} {i1 j1 i2 j2 : Nat → Nat}
    (h1 : Moves s1 s2 id m1 p1 i1 j1) (h2 : Moves s2 s3 id m2 p2 i2 j2) :
    Moves s1 s3 id (fun n a => m1 n a + m2 n a) (fun n a => p1 n a + p2 n a) (fun n => i1 n + i2 n) (fun n => j1 n + j2 n) := by
  refine ⟨fun n a => ?_, fun n a => by rw [h2.res, h1.res], fun n => ?_, fun n => by rw [h2.exist, h1.exist],
    fun n => by rw [h2.max, h1.max], fun j hj => by rw [h2.other j hj, h1.other j hj], by rw [h2.coll, h1.coll],
    by rw [h2.flags, h1.flags], by rw [h2.pubMint, h1.pubMint], by rw [h2.nextId, h1.nextId],
    by rw [h2.forAll, h1.forAll]⟩
  · have e1 := h1.free n a
    have e2 := h2.free n a
    omega
  · have e1 := h1.iss n
    have e2 := h2.iss n
    omega

theorem Moves.congr {s s' : St} {id : Nat} {m p m' p' : Nat → Acct → Nat} {i j i' j' : Nat → Nat}
    (h : Moves s s' id m p i j) (hm : ∀ n a, m' n a = m n a) (hp : ∀ n a, p' n a = p n a) (hi : ∀ n, i' n = i n)
    (hj : ∀ n, j' n = j n) : Moves s s' id m' p' i' j' := by
  have e1 : m' = m := funext fun n => funext fun a => hm n a
  have e2 : p' = p := funext fun n => funext fun a => hp n a
  have e3 : i' = i := funext hi
  have e4 : j' = j := funext hj
  rw [e1, e2, e3, e4]
  exact h

theorem tok_set_same (s : St) (id n : Nat) (t : Tok) : (setTok s id n t).tok id n = some t := by
  unfold setTok
  dsimp only
  rw [upd_same, upd_same]

theorem tok_set_ne (s : St) (id n : Nat) (t : Tok) {m : Nat} (h : m ≠ n) : (setTok s id n t).tok id m = s.tok id m := by
  unfold setTok
  dsimp only
  rw [upd_same, upd_ne _ _ h]

theorem tok_set_other (s : St) (id n : Nat) (t : Tok) {j : Nat} (h : j ≠ id) : (setTok s id n t).tok j = s.tok j := by
  unfold setTok
  dsimp only
  rw [upd_ne _ _ h]

/-- One token record of the collection is rewritten. -/
theorem Moves.one {s s' : St} {id n : Nat} {t t' : Tok} {m p : Acct → Nat} {i j : Nat} (ht : s.tok id n = some t)
    (htok : s'.tok = (setTok s id n t').tok) (hc : s'.coll = s.coll) (hfl : s'.flags = s.flags)
    (hpm : s'.pubMint = s.pubMint) (hn : s'.nextId = s.nextId) (hfa : s'.forAll = s.forAll)
    (hf : ∀ a, freeOf t'.owned a + m a = freeOf t.owned a + p a) (hr : ∀ a, resOf t'.owned a = resOf t.owned a)
    (hi : t'.iss + i = t.iss + j) (hm : t'.max = t.max) :
    Moves s s' id (fun k a => if k = n then m a else 0) (fun k a => if k = n then p a else 0)
      (fun k => if k = n then i else 0) (fun k => if k = n then j else 0) := by
  have hs : s'.tok id n = some t' := by rw [htok, tok_set_same]
  have ho : ∀ k, k ≠ n → s'.tok id k = s.tok id k := fun k hk => by rw [htok, tok_set_ne _ _ _ _ hk]
  refine ⟨fun k a => ?_, fun k a => ?_, fun k => ?_, fun k => ?_, fun k => ?_,
    fun j hj => by rw [htok, tok_set_other _ _ _ _ hj], hc, hfl, hpm, hn, hfa⟩
  · by_cases hk : k = n
    · subst hk
      rw [if_pos rfl, if_pos rfl]
      unfold Sft.free
      rw [hs, ht]
      exact hf a
    · rw [if_neg hk, if_neg hk]
      unfold Sft.free
      rw [ho k hk]
  · unfold Sft.res
    by_cases hk : k = n
    · subst hk; rw [hs, ht]; exact hr a
    · rw [ho k hk]
  · by_cases hk : k = n
    · subst hk
      rw [if_pos rfl, if_pos rfl]
      unfold Sft.iss
      rw [hs, ht]
      exact hi
    · rw [if_neg hk, if_neg hk]
      unfold Sft.iss
      rw [ho k hk]
  · by_cases hk : k = n
    · subst hk; rw [hs, ht]; rfl
    · rw [ho k hk]
  · unfold Sft.maxIss
    by_cases hk : k = n
    · subst hk; rw [hs, ht]; exact hm
    · rw [ho k hk]

/-! ## The invariant -/

/-- Every token record is consistent, belongs to a collection and has a serial below the next one; every
collection has an id given out earlier. -/
structure SI (c : Cfg) (s : St) : Prop where
  small : s.nextId ≤ 4194303
  ids : ∀ id k, s.coll id = some k → ∃ i, i < s.nextId ∧ Nft.nextAssetUuid i c.chainId = some id
  tok : ∀ id n t, s.tok id n = some t → TI c t
  below : ∀ id n t, s.tok id n = some t → ∃ k, s.coll id = some k ∧ n < k.next

theorem SI.genesis {c : Cfg} {s : St} (h : Genesis s) : SI c s :=
  ⟨by rw [h.nextId]; omega, fun id k hk => (by rw [h.coll] at hk; cases hk),
    fun id n t ht => (by rw [h.tok] at ht; cases ht), fun id n t ht => (by rw [h.tok] at ht; cases ht)⟩

theorem SI.fresh {c : Cfg} {s : St} (h : SI c s) {id : Nat} (hid : Nft.nextAssetUuid s.nextId c.chainId = some id) :
    s.coll id = none := by
  cases hk : s.coll id with
  | none => rfl
  | some k =>
    obtain ⟨i, hi, hj⟩ := h.ids id k hk
    have hs := h.small
    have := (Nft.uuid_inj hid hj (by unfold U32; omega) (by unfold U32; omega)).1
    omega

/-- A token record is rewritten. -/
theorem SI.rewrite {c : Cfg} {s s' : St} (h : SI c s) {id n : Nat} {t t' : Tok} (ht : s.tok id n = some t)
    (htok : s'.tok = (setTok s id n t').tok) (hc : s'.coll = s.coll) (hn : s'.nextId = s.nextId)
    (hti : TI c t') : SI c s' := by
  refine ⟨by rw [hn]; exact h.small, by rw [hc, hn]; exact h.ids, ?_, ?_⟩
  · intro j m u hu
    rw [htok] at hu
    by_cases hj : j = id
    · subst hj
      by_cases hm : m = n
      · subst hm; rw [tok_set_same] at hu; cases hu; exact hti
      · rw [tok_set_ne _ _ _ _ hm] at hu; exact h.tok _ _ _ hu
    · rw [tok_set_other _ _ _ _ hj] at hu; exact h.tok _ _ _ hu
  · intro j m u hu
    rw [htok] at hu
    rw [hc]
    by_cases hj : j = id
    · subst hj
      by_cases hm : m = n
      · subst hm; exact h.below _ _ _ ht
      · rw [tok_set_ne _ _ _ _ hm] at hu; exact h.below _ _ _ hu
    · rw [tok_set_other _ _ _ _ hj] at hu; exact h.below _ _ _ hu

/-! ## The three batches -/

theorem mintOne_ok {c : Cfg} {id : Nat} {k : Coll} {who owner : Acct} {s s' : St} {x : Nat × Nat} (h : SI c s)
    (hs : mintOne c id k who owner s x = .ok s') :
    SI c s' ∧ Moves s s' id (fun _ _ => 0) (fun n a => if n = x.1 then (if a = owner then x.2 else 0) else 0)
      (fun _ => 0) (fun n => if n = x.1 then x.2 else 0) := by
  simp only [mintOne, bind_ok, ensure_ok, okOr_ok, pure_ok] at hs
  obtain ⟨_, _, L, _, _, _, t, ht, _, h1, _, h2, o, ho, rfl⟩ := hs
  have hti := h.tok _ _ _ ht
  obtain ⟨b1, b2, _, _⟩ := addBalance_ok ho
  refine ⟨h.rewrite ht rfl rfl rfl (hti.minted h1 h2 ho), ?_⟩
  refine (Moves.one (s' := { setTok s id x.1 { t with iss := t.iss + x.2, owned := o } with ledger := L })
    (t' := { t with iss := t.iss + x.2, owned := o }) (m := fun _ => 0) (p := fun a => if a = owner then x.2 else 0) (i := 0) (j := x.2) ht rfl rfl rfl rfl
    rfl rfl (fun a => ?_) b2 rfl rfl).congr (fun n a => ?_) (fun _ _ => rfl) (fun n => ?_) (fun _ => rfl)
  · dsimp only; rw [b1, Nat.add_zero]
  · split <;> rfl
  · split <;> rfl

theorem transferOne_ok {c : Cfg} {id : Nat} {who new : Acct} {s s' : St} {x : Nat × Nat} (h : SI c s) (hne : who ≠ new)
    (hs : transferOne c id who new s x = .ok s') :
    SI c s' ∧ s'.ledger = s.ledger ∧
    Moves s s' id (fun n a => if n = x.1 then (if a = who then x.2 else 0) else 0)
      (fun n a => if n = x.1 then (if a = new then x.2 else 0) else 0) (fun _ => 0) (fun _ => 0) := by
  simp only [transferOne, bind_ok, ensure_ok, okOr_ok, pure_ok] at hs
  obtain ⟨_, _, t, ht, o, ho, rfl⟩ := hs
  have hti := h.tok _ _ _ ht
  obtain ⟨_, a2, a3, _, _⟩ := transferBalance_ok ho hne (hti.lt who)
  refine ⟨h.rewrite ht rfl rfl rfl (hti.moved hne ho), rfl, ?_⟩
  refine (Moves.one (t' := { t with owned := o }) (m := fun a => if a = who then x.2 else 0) (p := fun a => if a = new then x.2 else 0) (i := 0) (j := 0)
    ht rfl rfl rfl rfl rfl rfl a2 a3 rfl rfl).congr (fun _ _ => rfl) (fun _ _ => rfl) (fun n => ?_) (fun n => ?_)
  · split <;> rfl
  · split <;> rfl

theorem burnOne_ok {c : Cfg} {id : Nat} {who : Acct} {s s' : St} {x : Nat × Nat} (h : SI c s)
    (hs : burnOne id who s x = .ok s') :
    SI c s' ∧ s'.ledger = s.ledger ∧
    Moves s s' id (fun n a => if n = x.1 then (if a = who then x.2 else 0) else 0) (fun _ _ => 0)
      (fun n => if n = x.1 then x.2 else 0) (fun _ => 0) := by
  simp only [burnOne, bind_ok, ensure_ok, okOr_ok, pure_ok] at hs
  obtain ⟨_, _, t, ht, o, ho, rfl⟩ := hs
  have hti := h.tok _ _ _ ht
  obtain ⟨a1, a2, a3, _, _⟩ := removeBalance_ok ho (hti.lt who)
  have hle := hti.sum.le who
  refine ⟨h.rewrite ht rfl rfl rfl (hti.burnt ho), rfl, ?_⟩
  refine (Moves.one (t' := { t with iss := t.iss - x.2, owned := o }) (m := fun a => if a = who then x.2 else 0) (p := fun _ => 0) (i := x.2) (j := 0)
    ht rfl rfl rfl rfl rfl rfl (fun a => by rw [Nat.add_zero]; exact a2 a) a3 ?_ rfl).congr
    (fun _ _ => rfl) (fun n a => ?_) (fun n => rfl) (fun n => ?_)
  · dsimp only; omega
  · split <;> rfl
  · split <;> rfl

theorem mint_batch {c : Cfg} {id : Nat} {k : Coll} {who owner : Acct} : ∀ {xs : List (Nat × Nat)} {s s' : St}, SI c s →
    batch (mintOne c id k who owner) s xs = .ok s' →
    SI c s' ∧ Moves s s' id (fun _ _ => 0) (fun n a => if a = owner then qty xs n else 0) (fun _ => 0) (fun n => qty xs n)
  | [], s, s', h, hs => by
    cases hs
    exact ⟨h, (Moves.refl s id).congr (fun _ _ => rfl) (fun n a => by rw [qty_nil]; split <;> rfl) (fun _ => rfl) (fun _ => rfl)⟩
  | x :: xs, s, s', h, hs => by
    simp only [batch, bind_ok] at hs
    obtain ⟨s1, h1, h2⟩ := hs
    obtain ⟨i1, m1⟩ := mintOne_ok h h1
    obtain ⟨i2, m2⟩ := mint_batch i1 h2
    refine ⟨i2, (m1.trans m2).congr (fun _ _ => rfl) (fun n a => ?_) (fun _ => rfl) (fun n => qty_cons x xs n)⟩
    rw [qty_cons]
    by_cases ha : a = owner
    · simp only [if_pos ha]
    · simp only [if_neg ha]; split <;> rfl

theorem transfer_batch {c : Cfg} {id : Nat} {who new : Acct} (hne : who ≠ new) : ∀ {xs : List (Nat × Nat)} {s s' : St}, SI c s →
    batch (transferOne c id who new) s xs = .ok s' →
    SI c s' ∧ s'.ledger = s.ledger ∧
    Moves s s' id (fun n a => if a = who then qty xs n else 0) (fun n a => if a = new then qty xs n else 0)
      (fun _ => 0) (fun _ => 0)
  | [], s, s', h, hs => by
    cases hs
    exact ⟨h, rfl, (Moves.refl s id).congr (fun n a => by rw [qty_nil]; split <;> rfl)
      (fun n a => by rw [qty_nil]; split <;> rfl) (fun _ => rfl) (fun _ => rfl)⟩
  | x :: xs, s, s', h, hs => by
    simp only [batch, bind_ok] at hs
    obtain ⟨s1, h1, h2⟩ := hs
    obtain ⟨i1, l1, m1⟩ := transferOne_ok h hne h1
    obtain ⟨i2, l2, m2⟩ := transfer_batch hne i1 h2
    refine ⟨i2, l2.trans l1, (m1.trans m2).congr (fun n a => ?_) (fun n a => ?_) (fun _ => rfl) (fun n => rfl)⟩
    · rw [qty_cons]
      by_cases ha : a = who
      · simp only [if_pos ha]
      · simp only [if_neg ha]; split <;> rfl
    · rw [qty_cons]
      by_cases ha : a = new
      · simp only [if_pos ha]
      · simp only [if_neg ha]; split <;> rfl

theorem burn_batch {c : Cfg} {id : Nat} {who : Acct} : ∀ {xs : List (Nat × Nat)} {s s' : St}, SI c s →
    batch (burnOne id who) s xs = .ok s' →
    SI c s' ∧ s'.ledger = s.ledger ∧
    Moves s s' id (fun n a => if a = who then qty xs n else 0) (fun _ _ => 0) (fun n => qty xs n) (fun _ => 0)
  | [], s, s', h, hs => by
    cases hs
    exact ⟨h, rfl, (Moves.refl s id).congr (fun n a => by rw [qty_nil]; split <;> rfl)
      (fun n a => rfl) (fun _ => rfl) (fun _ => rfl)⟩
  | x :: xs, s, s', h, hs => by
    simp only [batch, bind_ok] at hs
    obtain ⟨s1, h1, h2⟩ := hs
    obtain ⟨i1, l1, m1⟩ := burnOne_ok h h1
    obtain ⟨i2, l2, m2⟩ := burn_batch i1 h2
    refine ⟨i2, l2.trans l1, (m1.trans m2).congr (fun n a => ?_) (fun n a => rfl) (fun n => qty_cons x xs n) (fun n => rfl)⟩
    rw [qty_cons]
    by_cases ha : a = who
    · simp only [if_pos ha]
    · simp only [if_neg ha]; split <;> rfl

/-! ## Every operation -/

theorem mint_ok {c : Cfg} {s s' : St} {who : Acct} {id : Nat} {xs : List (Nat × Nat)} {owner : Option Acct} (h : SI c s)
    (hs : mint c s who id xs owner = .ok s') :
    SI c s' ∧ (s.flags id).mintable = true ∧ xs ≠ [] ∧
    Moves s s' id (fun _ _ => 0) (fun n a => if a = owner.getD who then qty xs n else 0) (fun _ => 0) (fun n => qty xs n) := by
  simp only [mint, bind_ok, ensure_ok, okOr_ok] at hs
  obtain ⟨_, _, _, h1, k, _, _, h2, h3⟩ := hs
  obtain ⟨i, m⟩ := mint_batch h h3
  exact ⟨i, h2, h1, m⟩

theorem transfer_ok {c : Cfg} {s s' : St} {who : Acct} {id : Nat} {xs : List (Nat × Nat)} {new : Acct} (h : SI c s)
    (hs : transfer c s who id xs new = .ok s') :
    SI c s' ∧ s'.ledger = s.ledger ∧ (s.flags id).transferable = true ∧ xs ≠ [] ∧ who ≠ new ∧
    Moves s s' id (fun n a => if a = who then qty xs n else 0) (fun n a => if a = new then qty xs n else 0)
      (fun _ => 0) (fun _ => 0) := by
  simp only [transfer, bind_ok, ensure_ok] at hs
  obtain ⟨_, _, _, h1, _, hne, _, h2, h3⟩ := hs
  obtain ⟨i, l, m⟩ := transfer_batch hne h h3
  exact ⟨i, l, h2, h1, hne, m⟩

theorem burn_ok {c : Cfg} {s s' : St} {who : Acct} {id : Nat} {xs : List (Nat × Nat)} (h : SI c s)
    (hs : burn c s who id xs = .ok s') :
    SI c s' ∧ s'.ledger = s.ledger ∧ (s.flags id).burnable = true ∧ xs ≠ [] ∧
    Moves s s' id (fun n a => if a = who then qty xs n else 0) (fun _ _ => 0) (fun n => qty xs n) (fun _ => 0) := by
  simp only [burn, bind_ok, ensure_ok] at hs
  obtain ⟨_, _, _, h1, _, h2, h3⟩ := hs
  obtain ⟨i, l, m⟩ := burn_batch h h3
  exact ⟨i, l, h2, h1, m⟩

/-- The settings of a collection are rewritten, keeping its next serial. -/
theorem SI.setColl {c : Cfg} {s s' : St} (h : SI c s) {id : Nat} {k k' : Coll} (hk : s.coll id = some k)
    (hc : s'.coll = upd s.coll id (some k')) (hn : k'.next = k.next) (ht : s'.tok = s.tok) (hi : s'.nextId = s.nextId) :
    SI c s' := by
  refine ⟨by rw [hi]; exact h.small, ?_, by rw [ht]; exact h.tok, ?_⟩
  · intro j x hx
    rw [hc] at hx
    rw [hi]
    by_cases hj : j = id
    · subst hj; exact h.ids _ _ hk
    · rw [upd_ne _ _ hj] at hx; exact h.ids _ _ hx
  · intro j n t hx
    rw [ht] at hx
    rw [hc]
    by_cases hj : j = id
    · subst hj
      obtain ⟨k0, h0, h1⟩ := h.below _ _ _ hx
      rw [hk] at h0; cases h0
      exact ⟨k', upd_same _ _ _, by omega⟩
    · rw [upd_ne _ _ hj]; exact h.below _ _ _ hx

/-- Nothing the invariant speaks about changes. -/
theorem SI.same {c : Cfg} {s s' : St} (h : SI c s) (hc : s'.coll = s.coll) (ht : s'.tok = s.tok) (hn : s'.nextId = s.nextId) :
    SI c s' :=
  ⟨by rw [hn]; exact h.small, by rw [hc, hn]; exact h.ids, by rw [ht]; exact h.tok, by rw [ht, hc]; exact h.below⟩

theorem SI.step {c : Cfg} {s s' : St} {op : Op} (h : SI c s) (hs : step c s op = .ok s') : SI c s' := by
  cases op with
  | createColl o r =>
    simp only [Sft.step, createColl, bind_ok, ensure_ok, okOr_ok, pure_ok] at hs
    obtain ⟨id, hid, _, _, _, _, rfl⟩ := hs
    have hf := h.fresh hid
    have hb := Nft.uuid_bound hid h.small
    refine ⟨hb, ?_, h.tok, ?_⟩
    · intro j k hk
      dsimp only at hk ⊢
      by_cases hj : j = id
      · subst hj; exact ⟨s.nextId, by omega, hid⟩
      · rw [upd_ne _ _ hj] at hk
        obtain ⟨i, hi, hx⟩ := h.ids j k hk
        exact ⟨i, by omega, hx⟩
    · intro j n t ht
      dsimp only at ht ⊢
      obtain ⟨k, hk, hn⟩ := h.below j n t ht
      have hj : j ≠ id := by rintro rfl; rw [hf] at hk; cases hk
      rw [upd_ne _ _ hj]
      exact ⟨k, hk, hn⟩
  | takeUuid =>
    simp only [Sft.step, bind_ok, okOr_ok, pure_ok] at hs
    obtain ⟨id, hid, rfl⟩ := hs
    have hb := Nft.uuid_bound hid h.small
    refine ⟨hb, ?_, h.tok, h.below⟩
    intro j k hk
    obtain ⟨i, hi, hx⟩ := h.ids j k hk
    exact ⟨i, by dsimp only; omega, hx⟩
  | createToken w id i m o e =>
    simp only [Sft.step, createToken, bind_ok, ensure_ok, okOr_ok, pure_ok] at hs
    obtain ⟨_, hi, k, hk, _, _, _, hm, _, hn, _, _, rfl⟩ := hs
    refine ⟨h.small, ?_, ?_, ?_⟩
    · intro j x hx
      dsimp only at hx ⊢
      by_cases hj : j = id
      · subst hj; exact h.ids _ _ hk
      · rw [upd_ne _ _ hj] at hx; exact h.ids _ _ hx
    · intro j n t ht
      dsimp only at ht
      by_cases hj : j = id
      · subst hj
        by_cases hx : n = k.next
        · subst hx
          rw [tok_set_same] at ht; cases ht
          exact TI.first hi hm
        · rw [tok_set_ne _ _ _ _ hx] at ht; exact h.tok _ _ _ ht
      · rw [tok_set_other _ _ _ _ hj] at ht; exact h.tok _ _ _ ht
    · intro j n t ht
      dsimp only at ht ⊢
      by_cases hj : j = id
      · subst hj
        refine ⟨_, upd_same _ _ _, ?_⟩
        dsimp only
        by_cases hx : n = k.next
        · omega
        · rw [tok_set_ne _ _ _ _ hx] at ht
          obtain ⟨k0, h0, h1⟩ := h.below _ _ _ ht
          rw [hk] at h0; cases h0
          omega
      · rw [tok_set_other _ _ _ _ hj] at ht
        rw [upd_ne _ _ hj]
        exact h.below _ _ _ ht
  | mint w id xs o => exact (mint_ok h hs).1
  | transfer w id xs n => exact (transfer_ok h hs).1
  | burn w id xs => exact (burn_ok h hs).1
  | setOwner w id n =>
    simp only [Sft.step, setOwner, bind_ok, ensure_ok, okOr_ok, pure_ok] at hs
    obtain ⟨k, hk, _, _, rfl⟩ := hs
    exact h.setColl hk rfl rfl rfl rfl
  | setMax w id n m =>
    simp only [Sft.step, setMax, bind_ok, ensure_ok, okOr_ok, pure_ok] at hs
    obtain ⟨_, _, k, hk, _, _, t, ht, _, _, _, hle, rfl⟩ := hs
    have hti := h.tok _ _ _ ht
    refine h.rewrite ht rfl rfl rfl ⟨hti.nodup, hti.sum, hti.u128, ?_⟩
    intro m' hm'
    cases hm'
    exact hle
  | setRoyalties w id r =>
    simp only [Sft.step, setRoyalties, bind_ok, ensure_ok, okOr_ok, pure_ok] at hs
    obtain ⟨k, hk, _, _, _, _, rfl⟩ := hs
    exact h.setColl hk rfl rfl rfl rfl
  | setPubMint w id n p =>
    simp only [Sft.step, setPubMint, bind_ok, ensure_ok, okOr_ok, pure_ok] at hs
    obtain ⟨k, hk, _, _, rfl⟩ := hs
    exact h.same rfl rfl rfl
  | setFlags w id f =>
    simp only [Sft.step, setFlags, bind_ok, ensure_ok, okOr_ok, pure_ok] at hs
    obtain ⟨k, hk, _, _, rfl⟩ := hs
    exact h.same rfl rfl rfl
  | reserve id n a w =>
    simp only [Sft.step, reserve, bind_ok, okOr_ok, pure_ok] at hs
    obtain ⟨t, ht, o, ho, rfl⟩ := hs
    exact h.rewrite ht rfl rfl rfl ((h.tok _ _ _ ht).reserved ho)
  | unreserve id n a w =>
    simp only [Sft.step, unreserve, bind_ok, okOr_ok, pure_ok] at hs
    obtain ⟨t, ht, o, ho, rfl⟩ := hs
    exact h.rewrite ht rfl rfl rfl ((h.tok _ _ _ ht).unreserved ho)
  | approveAll a b id ok =>
    simp only [Sft.step, approveAll, bind_ok, ensure_ok, pure_ok] at hs
    obtain ⟨_, _, rfl⟩ := hs
    exact h.same rfl rfl rfl
  | safeTransfer a id xs f t =>
    simp only [Sft.step, safeTransfer, bind_ok, ensure_ok] at hs
    obtain ⟨_, _, hs⟩ := hs
    exact (transfer_ok h hs).1
  | safeBurn a id xs f =>
    simp only [Sft.step, safeBurn, bind_ok, ensure_ok] at hs
    obtain ⟨_, _, hs⟩ := hs
    exact (burn_ok h hs).1
  | ledger L => cases hs; exact h.same rfl rfl rfl

theorem Reach.si {c : Cfg} {s : St} (h : Reach c s) : SI c s := by
  induction h with
  | init hg => exact SI.genesis hg
  | step _ hs ih => exact ih.step hs

end Verif.Sft
