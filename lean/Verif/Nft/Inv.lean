import Verif.Nft.Lemmas

/-!
# What each operation does, and invariants of the NFT pallet
-/

namespace Verif.Nft

/-- The effect of a successful operation. -/
inductive Eff (c : Cfg) (s : St) (op : Op) : St → Prop where
  /-- nothing about collections changes -/
  | same {s' : St} (coll : s'.coll = s.coll) (minted : s'.minted = s.minted) (nextId : s'.nextId = s.nextId ∨
      (s'.nextId = s.nextId + 1 ∧ ∃ id, nextAssetUuid s.nextId c.chainId = some id))
      (appr : ∀ j m, s'.approvals j m = s.approvals j m ∨ s'.approvals j m = none ∨
        ∃ caller x a, op = .approve caller x j m ∧ s'.approvals j m = some x ∧ ownerOf s j m = some a ∧
          (a = caller ∨ s.forAll a j caller = true))
      (locks : ∀ j m, s'.locks j m = s.locks j m ∨ s'.locks j m = none ∨ ∃ a, ownerOf s j m = some a) : Eff c s op s'
  /-- a collection is created -/
  | new {id : Nat} {k' : Coll} {i : Nat} (uuid : nextAssetUuid s.nextId c.chainId = some id)
      (next : k'.next = i) (iss : k'.issuance = i)
      (max : ∀ m, k'.maxIss = some m → i ≤ m)
      (owned : (i = 0 ∧ k'.owned = []) ∨ ∃ a, k'.owned = [⟨a, sortN (List.range i)⟩])
      (made : k'.origin = .root ∨ ∃ o x, op = .createBridged o k'.origin x) :
      Eff c s op { setColl s id k' with
        nextId := s.nextId + 1
        minted := (List.range i).map (fun n => (id, n)) ++ s.minted }
  /-- settings of a collection change -/
  | set {id : Nat} {k k' : Coll} (coll : s.coll id = some k) (owned : k'.owned = k.owned)
      (origin : k'.origin = k.origin) (next : k'.next = k.next) (iss : k'.issuance = k.issuance)
      (max : k'.maxIss = k.maxIss ∨ (k.maxIss = none ∧ ∃ m, k'.maxIss = some m ∧ k.issuance ≤ m)) :
      Eff c s op (setColl s id k')
  /-- tokens move -/
  | transfer {id : Nat} {k : Coll} {ns : List Nat} {cur new : Acct} {o : List Own}
      (auth : op = .transfer cur id ns new ∨ ∃ caller n, op = .transferFrom caller id n cur new ∧ ns = [n] ∧
        isApprovedOrOwner s id n caller = true)
      (ne : cur ≠ new) (flag : (s.flags id).transferable = true) (coll : s.coll id = some k)
      (own : ∀ n ∈ ns, Owns k.owned cur n ∧ s.locks id n = none)
      (add : addUser c.maxTokens (removeUser k.owned cur ns) new ns = .ok o) :
      Eff c s op (clearApprovals (setColl s id { k with owned := o }) id ns)
  /-- a token is burnt -/
  | burn {id : Nat} {k : Coll} {n : Nat} {who : Acct}
      (auth : op = .burn who id n ∨ ∃ caller, op = .burnPrecompile caller id n ∧
        isApprovedOrOwner s id n caller = true ∧ ownerOf s id n = some who)
      (lock : s.locks id n = none) (flag : (s.flags id).burnable = true) (coll : s.coll id = some k)
      (own : Owns k.owned who n) :
      Eff c s op (clearApprovals (setColl s id { k with
        issuance := k.issuance - 1
        owned := burnFrom k.owned who n }) id [n])
  /-- tokens are minted on this chain -/
  | mint {who : Acct} {id q : Nat} {rcv : Option Acct} {ext : Bool} {k : Coll} {o : List Own} {L : Ledger}
      (hop : op = .mint who id q rcv ext) (flag : (s.flags id).mintable = true) (coll : s.coll id = some k)
      (pos : 0 < q) (lim : q ≤ c.mintLimit) (auth : k.owner = who ∨ (s.pubMint id).enabled = true)
      (origin : k.origin = .root) (u32 : k.next + q < U32) (cap : k.next + q ≤ c.maxTokens)
      (max : ∀ m, k.maxIss = some m → k.next + q ≤ m) (fee : maybeCharge s id k who q = .ok L)
      (add : addUser c.maxTokens k.owned (rcv.getD who) (List.range' k.next q) = .ok o) :
      Eff c s op { setColl s id { k with
          next := k.next + q
          issuance := k.issuance + q
          owned := o } with
        ledger := L
        minted := (List.range' k.next q).map (fun n => (id, n)) ++ s.minted }
  /-- tokens are minted by a bridge -/
  | bridged {id : Nat} {k : Coll} {o : List Own} {who : Acct} {ns : List Nat}
      (hop : op = .bridgedMint id who ns) (coll : s.coll id = some k)
      (add : addUser c.maxTokens k.owned who (trim k ns) = .ok o) :
      Eff c s op { setColl s id { k with
          issuance := k.issuance + (trim k ns).length
          owned := o } with
        minted := (trim k ns).map (fun n => (id, n)) ++ s.minted }

theorem eff_transfer {c : Cfg} {s s' : St} {op : Op} {id : Nat} {ns : List Nat} {cur new : Acct}
    (auth : op = .transfer cur id ns new ∨ ∃ caller n, op = .transferFrom caller id n cur new ∧ ns = [n] ∧
      isApprovedOrOwner s id n caller = true)
    (h : doTransfer c s id ns cur new = .ok s') : Eff c s op s' := by
  simp only [doTransfer, bind_ok, ensure_ok, okOr_ok, pure_ok] at h
  obtain ⟨_, _, _, hne, _, hf, k, hk, _, hown, o, ho, rfl⟩ := h
  exact .transfer auth hne hf hk (fun n hn => ⟨isTokenOwner_iff.mp (hown n hn).1, (hown n hn).2⟩) ho

theorem eff_burn {c : Cfg} {s s' : St} {op : Op} {id n : Nat} {who : Acct}
    (auth : op = .burn who id n ∨ ∃ caller, op = .burnPrecompile caller id n ∧
      isApprovedOrOwner s id n caller = true ∧ ownerOf s id n = some who)
    (h : doBurn s who id n = .ok s') : Eff c s op s' := by
  simp only [doBurn, bind_ok, ensure_ok, okOr_ok, pure_ok] at h
  obtain ⟨_, hl, _, hf, k, hk, _, ho, rfl⟩ := h
  exact .burn auth hl hf hk (isTokenOwner_iff.mp ho)

theorem eff_create {c : Cfg} {s s' : St} {op : Op} {owner : Acct} {i : Nat} {m : Option Nat} {t : Option Acct}
    {r : Option (List (Acct × Nat))} {g : Chain} {x : Bool} (hg : g = .root ∨ ∃ o x, op = .createBridged o g x)
    (h : doCreate c s owner i m t r g x = .ok s') : Eff c s op s' := by
  simp only [doCreate, nextUuid, bind_ok, ensure_ok, okOr_ok, pure_ok] at h
  obtain ⟨id, hid, _, hm, _, _, o, ho, rfl⟩ := h
  refine Eff.new (i := i) hid rfl rfl (fun n hn => (hm n hn).2.1) ?_ hg
  unfold firstOwned at ho
  split at ho
  · rename_i h0; cases ho; exact Or.inl ⟨h0, rfl⟩
  · simp only [bind_ok, ensure_ok, pure_ok] at ho
    obtain ⟨_, _, _, _, _, _, rfl⟩ := ho
    exact Or.inr ⟨_, rfl⟩

theorem step_eff {c : Cfg} {s s' : St} {op : Op} (h : step c s op = .ok s') : Eff c s op s' := by
  cases op with
  | create o i m t r x => exact eff_create (Or.inl rfl) h
  | createBridged o g x =>
    simp only [step, bind_ok, ensure_ok] at h
    obtain ⟨_, _, h⟩ := h
    exact eff_create (Or.inr ⟨_, _, rfl⟩) h
  | mint w id q t e =>
    simp only [step, mint, preMint, doMint, bind_ok, ensure_ok, okOr_ok, pure_ok] at h
    obtain ⟨_, hl, _, hf, k, hk, ns, ⟨_, hq, _, ha, _, _, _, hr, _, hu, _, hc, _, hm, rfl⟩, L, hL, s1,
      ⟨_, _, _, _, o, ho, rfl⟩, _, _, rfl⟩ := h
    simp only [List.length_range'] at *
    exact Eff.mint (L := L) rfl hf hk hq hl ha hr hu hc hm hL ho
  | bridgedMint id w ns =>
    simp only [step, bridgedMint] at h
    split at h
    · cases h; exact .same rfl rfl (Or.inl rfl) (fun _ _ => Or.inl rfl) (fun _ _ => Or.inl rfl)
    · split at h
      · cases h; exact .same rfl rfl (Or.inl rfl) (fun _ _ => Or.inl rfl) (fun _ _ => Or.inl rfl)
      · rename_i k hk
        split at h
        · cases h; exact .same rfl rfl (Or.inl rfl) (fun _ _ => Or.inl rfl) (fun _ _ => Or.inl rfl)
        · simp only [doMint, bind_ok, ensure_ok, pure_ok] at h
          obtain ⟨_, _, _, _, o, ho, rfl⟩ := h
          exact .bridged rfl hk ho
  | transfer w id ns n => exact eff_transfer (Or.inl rfl) h
  | burn w id n => exact eff_burn (Or.inl rfl) h
  | setOwner w id n =>
    simp only [step, setOwner, bind_ok, ensure_ok, okOr_ok, pure_ok] at h
    obtain ⟨k, hk, _, _, rfl⟩ := h
    exact .set hk rfl rfl rfl rfl (Or.inl rfl)
  | claimUnowned id n =>
    simp only [step, claimUnowned, bind_ok, ensure_ok, okOr_ok, pure_ok] at h
    obtain ⟨k, hk, _, _, rfl⟩ := h
    exact .set hk rfl rfl rfl rfl (Or.inl rfl)
  | setMaxIssuance w id m =>
    simp only [step, setMaxIssuance, bind_ok, ensure_ok, okOr_ok, pure_ok] at h
    obtain ⟨k, hk, _, _, _, _, _, hn, _, hi, rfl⟩ := h
    exact .set hk rfl rfl rfl rfl (Or.inr ⟨hn, m, rfl, hi⟩)
  | setPubMint w id p =>
    simp only [step, setPubMint, bind_ok, ensure_ok, okOr_ok, pure_ok] at h
    obtain ⟨k, hk, _, _, rfl⟩ := h
    exact .same rfl rfl (Or.inl rfl) (fun _ _ => Or.inl rfl) (fun _ _ => Or.inl rfl)
  | setRoyalties w id r =>
    simp only [step, setRoyalties, bind_ok, ensure_ok, okOr_ok, pure_ok] at h
    obtain ⟨k, hk, _, _, _, _, rfl⟩ := h
    exact .set hk rfl rfl rfl rfl (Or.inl rfl)
  | setFlags w id f =>
    simp only [step, setFlags, bind_ok, ensure_ok, okOr_ok, pure_ok] at h
    obtain ⟨k, hk, _, _, rfl⟩ := h
    exact .same rfl rfl (Or.inl rfl) (fun _ _ => Or.inl rfl) (fun _ _ => Or.inl rfl)
  | enableXls20 w id =>
    simp only [step, enableXls20, bind_ok, ensure_ok, okOr_ok, pure_ok] at h
    obtain ⟨k, hk, _, _, _, _, rfl⟩ := h
    exact .set hk rfl rfl rfl rfl (Or.inl rfl)
  | takeUuid =>
    simp only [step, takeUuid, nextUuid, bind_ok, ensure_ok, okOr_ok, pure_ok] at h
    obtain ⟨id, hid, _, _, rfl⟩ := h
    exact .same rfl rfl (Or.inr ⟨rfl, id, hid⟩) (fun _ _ => Or.inl rfl) (fun _ _ => Or.inl rfl)
  | setLock w id n l =>
    simp only [step, setLock, bind_ok, ensure_ok, pure_ok] at h
    obtain ⟨_, _, _, ho, rfl⟩ := h
    refine .same rfl rfl (Or.inl rfl) (fun _ _ => Or.inl rfl) (fun j m => ?_)
    dsimp only
    by_cases hj : j = id
    · subst hj
      rw [upd_same]
      by_cases hm : m = n
      · subst hm; exact Or.inr (Or.inr ⟨w, ho⟩)
      · rw [upd_ne _ _ hm]; exact Or.inl rfl
    · rw [upd_ne _ _ hj]; exact Or.inl rfl
  | removeLock id n =>
    cases h
    refine .same rfl rfl (Or.inl rfl) (fun _ _ => Or.inl rfl) (fun j m => ?_)
    unfold removeLock
    dsimp only
    by_cases hj : j = id
    · subst hj
      rw [upd_same]
      by_cases hm : m = n
      · subst hm; rw [upd_same]; exact Or.inr (Or.inl rfl)
      · rw [upd_ne _ _ hm]; exact Or.inl rfl
    · rw [upd_ne _ _ hj]; exact Or.inl rfl
  | approve a b id n =>
    simp only [step, approve, bind_ok, ensure_ok, okOr_ok, pure_ok] at h
    obtain ⟨_, _, o, ho, _, hau, rfl⟩ := h
    refine .same rfl rfl (Or.inl rfl) (fun j m => ?_) (fun _ _ => Or.inl rfl)
    dsimp only
    by_cases hj : j = id
    · subst hj
      rw [upd_same]
      by_cases hm : m = n
      · subst hm; exact Or.inr (Or.inr ⟨a, b, o, rfl, upd_same _ _ _, ho, hau⟩)
      · rw [upd_ne _ _ hm]; exact Or.inl rfl
    · rw [upd_ne _ _ hj]; exact Or.inl rfl
  | removeApproval w id n =>
    simp only [step, removeApproval, bind_ok, ensure_ok, pure_ok] at h
    obtain ⟨_, _, _, _, rfl⟩ := h
    refine .same rfl rfl (Or.inl rfl) (fun j m => ?_) (fun _ _ => Or.inl rfl)
    unfold clearApprovals
    dsimp only
    split
    · exact Or.inr (Or.inl rfl)
    · exact Or.inl rfl
  | approveAll a b id ok =>
    simp only [step, approveAll, bind_ok, ensure_ok, pure_ok] at h
    obtain ⟨_, _, rfl⟩ := h
    exact .same rfl rfl (Or.inl rfl) (fun _ _ => Or.inl rfl) (fun _ _ => Or.inl rfl)
  | transferFrom a id n f t =>
    simp only [step, transferFrom, bind_ok, ensure_ok] at h
    obtain ⟨_, ha, h⟩ := h
    exact eff_transfer (Or.inr ⟨a, n, rfl, rfl, ha⟩) h
  | burnPrecompile a id n =>
    simp only [step, burnPrecompile, bind_ok, ensure_ok, okOr_ok] at h
    obtain ⟨_, ha, o, ho, h⟩ := h
    exact eff_burn (Or.inr ⟨a, rfl, ha, ho⟩) h
  | ledger L => cases h; exact .same rfl rfl (Or.inl rfl) (fun _ _ => Or.inl rfl) (fun _ _ => Or.inl rfl)

/-! ## collection ids -/

/-- Distinct counter values give distinct ids. -/
theorem uuid_inj {i j p q id : Nat} (h1 : nextAssetUuid i p = some id) (h2 : nextAssetUuid j q = some id)
    (hi : i < U32 - 1) (hj : j < U32 - 1) : i = j ∧ p = q := by
  unfold nextAssetUuid at h1 h2
  split at h1
  · cases h1
  rename_i h1'
  split at h2
  · cases h2
  rename_i h2'
  simp only [not_or, not_lt] at h1' h2'
  simp only [Option.some.injEq] at h1 h2
  have e1 : (i <<< 10) ||| p = i * 1024 + p := by
    rw [Nat.shiftLeft_eq]
    have := Nat.shiftLeft_add_eq_or_of_lt (a := i) (b := p) (i := 10) (by omega)
    rw [Nat.shiftLeft_eq] at this
    omega
  have e2 : (j <<< 10) ||| q = j * 1024 + q := by
    rw [Nat.shiftLeft_eq]
    have := Nat.shiftLeft_add_eq_or_of_lt (a := j) (b := q) (i := 10) (by omega)
    rw [Nat.shiftLeft_eq] at this
    omega
  omega

/-- An id is given out only while the counter is small. -/
theorem uuid_bound {i p id : Nat} (h : nextAssetUuid i p = some id) (hi : i ≤ 4194303) : i + 1 ≤ 4194303 := by
  unfold nextAssetUuid at h
  split at h
  · cases h
  · rename_i h'
    simp only [not_or, not_lt] at h'
    have : (i + 1) % U32 = i + 1 := Nat.mod_eq_of_lt (by unfold U32; omega)
    omega

/-! ## invariants that hold without restriction -/

/-- Every collection has an id taken from the counter, and an account has at most one entry per
collection. -/
structure AI (c : Cfg) (s : St) : Prop where
  small : s.nextId ≤ 4194303
  ids : ∀ id k, s.coll id = some k → ∃ i, i < s.nextId ∧ nextAssetUuid i c.chainId = some id
  owners : ∀ id k, s.coll id = some k → (k.owned.map Own.owner).Nodup
  locks : ∀ id n l, s.locks id n = some l → ∃ a, ownerOf s id n = some a

theorem AI.genesis {c : Cfg} {s : St} (h : Genesis s) : AI c s :=
  ⟨by rw [h.nextId]; omega, fun id k hk => (by rw [h.coll] at hk; cases hk),
    fun id k hk => (by rw [h.coll] at hk; cases hk), fun id n l hl => (by rw [h.locks] at hl; cases hl)⟩

/-- The next id is free. -/
theorem AI.fresh {c : Cfg} {s : St} (h : AI c s) {id : Nat} (hid : nextAssetUuid s.nextId c.chainId = some id) :
    s.coll id = none := by
  cases hk : s.coll id with
  | none => rfl
  | some k =>
    obtain ⟨i, hi, hj⟩ := h.ids id k hk
    have hs := h.small
    have := (uuid_inj hid hj (by unfold U32; omega) (by unfold U32; omega)).1
    omega

theorem ownerOf_some {s : St} {id n : Nat} {k : Coll} (hk : s.coll id = some k) :
    ownerOf s id n = getOwner k.owned n := by
  unfold ownerOf; rw [hk]; rfl

/-- A token has an owner iff somebody owns it. -/
theorem ownerOf_exists {s : St} {id n : Nat} :
    (∃ a, ownerOf s id n = some a) ↔ ∃ k a, s.coll id = some k ∧ Owns k.owned a n := by
  constructor
  · rintro ⟨a, h⟩
    unfold ownerOf at h
    cases hk : s.coll id with
    | none => rw [hk] at h; cases h
    | some k => rw [hk] at h; exact ⟨k, a, rfl, getOwner_owns h⟩
  · rintro ⟨k, a, hk, ho⟩
    rw [ownerOf_some hk]
    cases hg : getOwner k.owned n with
    | none => exact absurd ho (getOwner_none.mp hg a)
    | some b => exact ⟨b, rfl⟩

theorem ownerOf_congr {s s' : St} (h : s'.coll = s.coll) (id n : Nat) : ownerOf s' id n = ownerOf s id n := by
  unfold ownerOf; rw [h]

/-- A record is written under an id that is already taken. -/
theorem AI.set {c : Cfg} {s s' : St} (h : AI c s) {id : Nat} {k k' : Coll} (hk : s.coll id = some k)
    (hc : s'.coll = upd s.coll id (some k')) (hn : s'.nextId = s.nextId) (hl : s'.locks = s.locks)
    (ho : (k.owned.map Own.owner).Nodup → (k'.owned.map Own.owner).Nodup)
    (hx : ∀ n l, s.locks id n = some l → (∃ a, Owns k.owned a n) → ∃ a, Owns k'.owned a n) : AI c s' := by
  refine ⟨by rw [hn]; exact h.small, ?_, ?_, ?_⟩
  · intro j x hx
    rw [hc] at hx
    rw [hn]
    by_cases hj : j = id
    · subst hj; exact h.ids j k hk
    · rw [upd_ne _ _ hj] at hx; exact h.ids j x hx
  · intro j x hx
    rw [hc] at hx
    by_cases hj : j = id
    · subst hj; rw [upd_same] at hx; cases hx; exact ho (h.owners j k hk)
    · rw [upd_ne _ _ hj] at hx; exact h.owners j x hx
  · intro j n l hjl
    rw [hl] at hjl
    have h1 := ownerOf_exists.mp (h.locks j n l hjl)
    obtain ⟨x, a, h2, h3⟩ := h1
    refine ownerOf_exists.mpr ?_
    by_cases hj : j = id
    · subst hj
      rw [hk] at h2; cases h2
      obtain ⟨b, hb⟩ := hx n l hjl ⟨a, h3⟩
      exact ⟨k', b, by rw [hc, upd_same], hb⟩
    · exact ⟨x, a, by rw [hc, upd_ne _ _ hj]; exact h2, h3⟩

theorem AI.step {c : Cfg} {s s' : St} {op : Op} (h : AI c s) (e : Eff c s op s') : AI c s' := by
  cases e with
  | same hc hm hn ha hl =>
    refine ⟨?_, ?_, ?_, ?_⟩
    · have := h.small
      rcases hn with hn | ⟨hn, id, hid⟩
      · omega
      · have := uuid_bound hid this; omega
    · intro id k hk
      rw [hc] at hk
      obtain ⟨i, h1, h2⟩ := h.ids id k hk
      exact ⟨i, by omega, h2⟩
    · intro id k hk; rw [hc] at hk; exact h.owners id k hk
    · intro id n l hsl
      rw [ownerOf_congr hc]
      rcases hl id n with h1 | h1 | h1
      · rw [h1] at hsl; exact h.locks id n l hsl
      · rw [h1] at hsl; cases hsl
      · exact h1
  | @new id k' i hid hnx hi hm ho =>
    have hf := h.fresh hid
    refine ⟨uuid_bound hid h.small, ?_, ?_, ?_⟩
    · intro j x hx
      by_cases hj : j = id
      · subst hj; exact ⟨s.nextId, Nat.lt_succ_self _, hid⟩
      · have hx : s.coll j = some x := by rw [← hx]; exact (upd_ne _ _ hj).symm
        obtain ⟨i, h1, h2⟩ := h.ids j x hx
        exact ⟨i, Nat.lt_succ_of_lt h1, h2⟩
    · intro j x hx
      by_cases hj : j = id
      · subst hj
        have hx : some k' = some x := by rw [← hx]; exact (upd_same _ _ _).symm
        cases hx
        rcases ho with ⟨_, ho⟩ | ⟨a, ho⟩
        · rw [ho]; exact List.nodup_nil
        · rw [ho]; exact List.nodup_singleton _
      · have hx : s.coll j = some x := by rw [← hx]; exact (upd_ne _ _ hj).symm
        exact h.owners j x hx
    · intro j n l hjl
      obtain ⟨x, a, h2, h3⟩ := ownerOf_exists.mp (h.locks j n l hjl)
      refine ownerOf_exists.mpr ⟨x, a, ?_, h3⟩
      have hj : j ≠ id := by rintro rfl; rw [hf] at h2; cases h2
      rw [← h2]; exact upd_ne _ _ hj
  | set hk ho hg hn hi hm => exact h.set hk rfl rfl rfl (by rw [ho]; exact fun h => h) (by rw [ho]; exact fun _ _ _ h => h)
  | @transfer id k ns cur new o auth hne hf hk hown hadd =>
    refine h.set hk rfl rfl rfl (fun hn => addUser_owners hadd (removeUser_owners hn)) ?_
    intro n l _ ⟨a, ha⟩
    by_cases hn : n ∈ ns
    · exact ⟨new, (addUser_owns hadd new n).mpr (Or.inr ⟨rfl, hn⟩)⟩
    · exact ⟨a, (addUser_owns hadd a n).mpr (Or.inl ((removeUser_owns (h.owners id k hk) a n).mpr ⟨ha, fun hc => hn hc.2⟩))⟩
  | @burn id k n who auth hlk hf hk hown =>
    refine h.set hk rfl rfl rfl (fun hn => by rw [burnFrom_owners]; exact hn) ?_
    intro m l hl ⟨a, ha⟩
    refine ⟨a, (burnFrom_owns a m).mpr ⟨ha, fun hc => ?_⟩⟩
    rw [hc.2] at hl
    rw [hlk] at hl
    cases hl
  | mint hop hf hk hq hlim hauth horig hu hcap hmax hfee hadd =>
    exact h.set hk rfl rfl rfl (fun hn => addUser_owners hadd hn)
      (fun n l _ ⟨a, ha⟩ => ⟨a, (addUser_owns hadd a n).mpr (Or.inl ha)⟩)
  | bridged hop hk hadd =>
    exact h.set hk rfl rfl rfl (fun hn => addUser_owners hadd hn)
      (fun n l _ ⟨a, ha⟩ => ⟨a, (addUser_owns hadd a n).mpr (Or.inl ha)⟩)

theorem Reach.ai {c : Cfg} {G : St → Op → Prop} {s : St} (h : Reach c G s) : AI c s := by
  induction h with
  | init hg => exact AI.genesis hg
  | step _ _ hs ih => exact ih.step (step_eff hs)

/-! ## invariants when the bridges mint only into bridged collections -/

/-- Invariant of a collection record. -/
structure CI (k : Coll) : Prop where
  uniq : ∀ a b n, Owns k.owned a n → Owns k.owned b n → a = b
  card : (tokens k.owned).card = k.issuance
  below : k.origin = .root → ∀ a n, Owns k.owned a n → n < k.next
  max : k.origin = .root → ∀ m, k.maxIss = some m → k.issuance ≤ m

structure BI (s : St) : Prop where
  coll : ∀ id k, s.coll id = some k → CI k
  minted : ∀ id n, (id, n) ∈ s.minted → ∃ k, s.coll id = some k ∧ (k.origin = .root → n < k.next)
  once : s.minted.Pairwise (fun p q => p = q → ∀ k, s.coll p.1 = some k → k.origin ≠ .root)
  born : ∀ id k a n, s.coll id = some k → Owns k.owned a n → (id, n) ∈ s.minted
  appr : ∀ id n x, s.approvals id n = some x → ∃ a, ownerOf s id n = some a

theorem BI.genesis {s : St} (h : Genesis s) : BI s :=
  ⟨fun id k hk => (by rw [h.coll] at hk; cases hk), fun id n hm => (by rw [h.minted] at hm; cases hm),
    (by rw [h.minted]; exact List.Pairwise.nil), fun id k a n hk => (by rw [h.coll] at hk; cases hk),
    fun id n l hl => (by rw [h.approvals] at hl; cases hl)⟩

theorem card_add {o o' : List Own} {who : Acct} {ns : List Nat}
    (h : ∀ a n, Owns o' a n ↔ Owns o a n ∨ (a = who ∧ n ∈ ns)) (hn : ns.Nodup)
    (hnew : ∀ n ∈ ns, ∀ a, ¬ Owns o a n) : (tokens o').card = (tokens o).card + ns.length := by
  have e : tokens o' = tokens o ∪ ns.toFinset := by
    ext n
    rw [Finset.mem_union, mem_tokens, mem_tokens, List.mem_toFinset]
    constructor
    · rintro ⟨a, ha⟩
      rcases (h a n).mp ha with h1 | h1
      · exact Or.inl ⟨a, h1⟩
      · exact Or.inr h1.2
    · rintro (⟨a, ha⟩ | hm)
      · exact ⟨a, (h a n).mpr (Or.inl ha)⟩
      · exact ⟨who, (h who n).mpr (Or.inr ⟨rfl, hm⟩)⟩
  rw [e, Finset.card_union_of_disjoint, List.toFinset_card_of_nodup hn]
  rw [Finset.disjoint_left]
  intro n h1 h2
  obtain ⟨a, ha⟩ := mem_tokens.mp h1
  exact hnew n (List.mem_toFinset.mp h2) a ha

theorem trim_nodup (k : Coll) (ns : List Nat) : (trim k ns).Nodup := (List.nodup_dedup _).filter _

theorem mem_trim {k : Coll} {ns : List Nat} {n : Nat} :
    n ∈ trim k ns ↔ n ∈ ns ∧ ∀ a, ¬ Owns k.owned a n := by
  unfold trim
  rw [List.mem_filter, List.mem_dedup, mem_sortN]
  constructor
  · rintro ⟨h1, h2⟩
    refine ⟨h1, fun a ha => ?_⟩
    rw [tokenExists_iff.mpr ⟨a, ha⟩] at h2
    cases h2
  · rintro ⟨h1, h2⟩
    refine ⟨h1, ?_⟩
    cases hx : tokenExists k.owned n with
    | false => rfl
    | true => obtain ⟨a, ha⟩ := tokenExists_iff.mp hx; exact absurd ha (h2 a)

/-- Adding new tokens to a record with unique owners. -/
theorem uniq_add {o o' : List Own} {who : Acct} {ns : List Nat}
    (h : ∀ a n, Owns o' a n ↔ Owns o a n ∨ (a = who ∧ n ∈ ns))
    (hu : ∀ a b n, Owns o a n → Owns o b n → a = b)
    (hnew : ∀ n ∈ ns, ∀ a, ¬ Owns o a n) : ∀ a b n, Owns o' a n → Owns o' b n → a = b := by
  intro a b n ha hb
  rcases (h a n).mp ha with h1 | h1 <;> rcases (h b n).mp hb with h2 | h2
  · exact hu a b n h1 h2
  · exact absurd h1 (hnew n h2.2 a)
  · exact absurd h2 (hnew n h1.2 b)
  · exact h1.1.trans h2.1.symm

/-- Ownership after a transfer. -/
theorem transfer_owns {max : Nat} {o o' : List Own} {cur new : Acct} {ns : List Nat}
    (hn : (o.map Own.owner).Nodup) (h : addUser max (removeUser o cur ns) new ns = .ok o') (a : Acct) (n : Nat) :
    Owns o' a n ↔ (Owns o a n ∧ ¬ (a = cur ∧ n ∈ ns)) ∨ (a = new ∧ n ∈ ns) := by
  rw [addUser_owns h, removeUser_owns hn]

theorem CI.transfer {max : Nat} {k : Coll} (h : CI k) {o' : List Own} {cur new : Acct} {ns : List Nat}
    (hn : (k.owned.map Own.owner).Nodup) (hown : ∀ n ∈ ns, Owns k.owned cur n)
    (hadd : addUser max (removeUser k.owned cur ns) new ns = .ok o') : CI { k with owned := o' } := by
  have ht := transfer_owns hn hadd
  have hex : ∀ a n, Owns o' a n → ∃ b, Owns k.owned b n := by
    intro a n ha
    rcases (ht a n).mp ha with h1 | h1
    · exact ⟨a, h1.1⟩
    · exact ⟨cur, hown n h1.2⟩
  refine ⟨?_, ?_, ?_, h.max⟩
  · intro a b n ha hb
    rcases (ht a n).mp ha with h1 | h1 <;> rcases (ht b n).mp hb with h2 | h2
    · exact h.uniq a b n h1.1 h2.1
    · exact absurd ⟨h.uniq a cur n h1.1 (hown n h2.2), h2.2⟩ h1.2
    · exact absurd ⟨h.uniq b cur n h2.1 (hown n h1.2), h1.2⟩ h2.2
    · exact h1.1.trans h2.1.symm
  · dsimp only
    rw [← h.card]
    congr 1
    ext n
    rw [mem_tokens, mem_tokens]
    constructor
    · rintro ⟨a, ha⟩; exact hex a n ha
    · rintro ⟨a, ha⟩
      by_cases hm : n ∈ ns
      · exact ⟨new, (ht new n).mpr (Or.inr ⟨rfl, hm⟩)⟩
      · exact ⟨a, (ht a n).mpr (Or.inl ⟨ha, fun hc => hm hc.2⟩)⟩
  · intro hr a n ha
    obtain ⟨b, hb⟩ := hex a n ha
    exact h.below hr b n hb

theorem CI.burn {k : Coll} (h : CI k) {who : Acct} {n : Nat} (hown : Owns k.owned who n) :
    CI { k with issuance := k.issuance - 1, owned := burnFrom k.owned who n } := by
  refine ⟨?_, ?_, ?_, ?_⟩
  · intro a b m ha hb
    exact h.uniq a b m ((burnFrom_owns a m).mp ha).1 ((burnFrom_owns b m).mp hb).1
  · dsimp only
    have e : tokens (burnFrom k.owned who n) = (tokens k.owned).erase n := by
      ext m
      rw [Finset.mem_erase, mem_tokens, mem_tokens]
      constructor
      · rintro ⟨a, ha⟩
        obtain ⟨h1, h2⟩ := (burnFrom_owns a m).mp ha
        refine ⟨?_, a, h1⟩
        rintro rfl
        exact h2 ⟨h.uniq a who m h1 hown, rfl⟩
      · rintro ⟨hm, a, ha⟩
        exact ⟨a, (burnFrom_owns a m).mpr ⟨ha, fun hc => hm hc.2⟩⟩
    rw [e, Finset.card_erase_of_mem (mem_tokens.mpr ⟨who, hown⟩), h.card]
  · intro hr a m ha
    exact h.below hr a m ((burnFrom_owns a m).mp ha).1
  · intro hr m hm
    have := h.max hr m hm
    dsimp only
    omega

theorem card_le_next {k : Coll} (h : CI k) (hr : k.origin = .root) : k.issuance ≤ k.next := by
  rw [← h.card]
  have : tokens k.owned ⊆ Finset.range k.next := by
    intro n hn
    obtain ⟨a, ha⟩ := mem_tokens.mp hn
    exact Finset.mem_range.mpr (h.below hr a n ha)
  have := Finset.card_le_card this
  rwa [Finset.card_range] at this

theorem CI.mint {max : Nat} {k : Coll} (h : CI k) {o' : List Own} {who : Acct} {q : Nat}
    (hr : k.origin = .root) (hmax : ∀ m, k.maxIss = some m → k.next + q ≤ m)
    (hadd : addUser max k.owned who (List.range' k.next q) = .ok o') :
    CI { k with next := k.next + q, issuance := k.issuance + q, owned := o' } := by
  have ho := addUser_owns hadd
  have hnew : ∀ n ∈ List.range' k.next q, ∀ a, ¬ Owns k.owned a n := by
    intro n hn a ha
    have := h.below hr a n ha
    simp only [List.mem_range'_1] at hn
    omega
  refine ⟨uniq_add ho h.uniq hnew, ?_, ?_, ?_⟩
  · have := card_add ho List.nodup_range' hnew
    rw [List.length_range', h.card] at this
    exact this
  · intro _ a n ha
    dsimp only
    rcases (ho a n).mp ha with h1 | h1
    · have := h.below hr a n h1; omega
    · have := h1.2; simp only [List.mem_range'_1] at this; omega
  · intro _ m hm
    have h1 := hmax m hm
    have h2 := card_le_next h hr
    dsimp only
    omega

theorem CI.bridged {max : Nat} {k : Coll} (h : CI k) {o' : List Own} {who : Acct} {ns : List Nat}
    (hr : k.origin ≠ .root) (hadd : addUser max k.owned who (trim k ns) = .ok o') :
    CI { k with issuance := k.issuance + (trim k ns).length, owned := o' } := by
  have ho := addUser_owns hadd
  have hnew : ∀ n ∈ trim k ns, ∀ a, ¬ Owns k.owned a n := fun n hn => (mem_trim.mp hn).2
  refine ⟨uniq_add ho h.uniq hnew, ?_, fun hx => absurd hx hr, fun hx => absurd hx hr⟩
  have := card_add ho (trim_nodup k ns) hnew
  rw [h.card] at this
  exact this

theorem CI.set {k k' : Coll} (h : CI k) (ho : k'.owned = k.owned) (hg : k'.origin = k.origin)
    (hn : k'.next = k.next) (hi : k'.issuance = k.issuance)
    (hm : k'.maxIss = k.maxIss ∨ (k.maxIss = none ∧ ∃ m, k'.maxIss = some m ∧ k.issuance ≤ m)) : CI k' := by
  refine ⟨by rw [ho]; exact h.uniq, by rw [ho, hi]; exact h.card, by rw [ho, hg, hn]; exact h.below, ?_⟩
  intro hr m hx
  rw [hg] at hr
  rw [hi]
  rcases hm with hm | ⟨_, m', hm, hle⟩
  · rw [hm] at hx; exact h.max hr m hx
  · rw [hm] at hx; cases hx; exact hle

theorem CI.new {k' : Coll} {i : Nat} (hn : k'.next = i) (hi : k'.issuance = i)
    (hm : ∀ m, k'.maxIss = some m → i ≤ m)
    (ho : (i = 0 ∧ k'.owned = []) ∨ ∃ a, k'.owned = [⟨a, sortN (List.range i)⟩]) : CI k' := by
  rcases ho with ⟨h0, ho⟩ | ⟨a0, ho⟩
  · refine ⟨?_, ?_, ?_, ?_⟩
    · rw [ho]; rintro a b n ⟨e, he, _⟩; cases he
    · rw [ho, hi, h0]; rfl
    · rw [ho]; rintro _ a n ⟨e, he, _⟩; cases he
    · intro _ m hx; rw [hi]; exact hm m hx
  · have hx : ∀ a n, Owns k'.owned a n ↔ a = a0 ∧ n < i := by
      intro a n
      rw [ho]
      unfold Owns
      simp only [List.mem_singleton, exists_eq_left, mem_sortN, List.mem_range]
      constructor
      · rintro ⟨rfl, h⟩; exact ⟨rfl, h⟩
      · rintro ⟨rfl, h⟩; exact ⟨rfl, h⟩
    refine ⟨?_, ?_, ?_, ?_⟩
    · intro a b n ha hb
      exact ((hx a n).mp ha).1.trans ((hx b n).mp hb).1.symm
    · have : tokens k'.owned = Finset.range i := by
        ext n
        rw [mem_tokens, Finset.mem_range]
        constructor
        · rintro ⟨a, ha⟩; exact ((hx a n).mp ha).2
        · intro hn; exact ⟨a0, (hx a0 n).mpr ⟨rfl, hn⟩⟩
      rw [this, Finset.card_range, hi]
    · intro _ a n ha; rw [hn]; exact ((hx a n).mp ha).2
    · intro _ m hy; rw [hi]; exact hm m hy

/-- A record is replaced and tokens are minted. -/
theorem BI.set {s s' : St} (h : BI s) {id : Nat} {k k' : Coll} {new : List Nat} (hk : s.coll id = some k)
    (hc : s'.coll = upd s.coll id (some k')) (hg : k'.origin = k.origin) (hn : k.next ≤ k'.next) (hci : CI k')
    (hm : s'.minted = new.map (fun n => (id, n)) ++ s.minted) (hnd : new.Nodup)
    (hnew : k.origin = .root → ∀ n ∈ new, k.next ≤ n ∧ n < k'.next)
    (hborn : ∀ a n, Owns k'.owned a n → (∃ b, Owns k.owned b n) ∨ n ∈ new)
    (ha : ∀ j m x, s'.approvals j m = some x → s.approvals j m = some x ∧
      (j = id → (∃ a, Owns k.owned a m) → ∃ a, Owns k'.owned a m)) : BI s' := by
  have hor : ∀ j x', s'.coll j = some x' → ∃ x, s.coll j = some x ∧ x'.origin = x.origin ∧ x.next ≤ x'.next := by
    intro j x' hx
    rw [hc] at hx
    by_cases hj : j = id
    · subst hj; rw [upd_same] at hx; cases hx; exact ⟨k, hk, hg, hn⟩
    · rw [upd_ne _ _ hj] at hx; exact ⟨x', hx, rfl, le_refl _⟩
  refine ⟨?_, ?_, ?_, ?_, ?_⟩
  · intro j x hx
    rw [hc] at hx
    by_cases hj : j = id
    · subst hj; rw [upd_same] at hx; cases hx; exact hci
    · rw [upd_ne _ _ hj] at hx; exact h.coll j x hx
  · intro j n hjn
    rw [hm] at hjn
    rcases List.mem_append.mp hjn with h1 | h1
    · obtain ⟨m, hm1, hm2⟩ := List.mem_map.mp h1
      cases hm2
      exact ⟨k', by rw [hc, upd_same], fun hr => (hnew (by rw [← hg]; exact hr) n hm1).2⟩
    · obtain ⟨x, hx, hb⟩ := h.minted j n h1
      by_cases hj : j = id
      · subst hj
        rw [hk] at hx; cases hx
        exact ⟨k', by rw [hc, upd_same], fun hr => lt_of_lt_of_le (hb (by rw [← hg]; exact hr)) hn⟩
      · exact ⟨x, by rw [hc, upd_ne _ _ hj]; exact hx, hb⟩
  · rw [hm, List.pairwise_append]
    refine ⟨?_, ?_, ?_⟩
    · rw [List.pairwise_map]
      refine List.Pairwise.imp ?_ hnd
      intro a b hab he
      simp only [Prod.mk.injEq, true_and] at he
      exact absurd he hab
    · refine List.Pairwise.imp ?_ h.once
      intro p q hpq he x' hx'
      obtain ⟨x, hx, hxo, _⟩ := hor _ _ hx'
      rw [hxo]; exact hpq he x hx
    · intro p hp q hq he x' hx'
      obtain ⟨m, hm1, rfl⟩ := List.mem_map.mp hp
      subst he
      obtain ⟨x, hx, hb⟩ := h.minted id m hq
      rw [hk] at hx; cases hx
      dsimp only at hx'
      rw [hc, upd_same] at hx'
      cases hx'
      intro hr
      rw [hg] at hr
      have h1 := hb hr
      have h2 := (hnew hr m hm1).1
      omega
  · intro j x a n hx ho
    rw [hm]
    rw [hc] at hx
    by_cases hj : j = id
    · subst hj
      rw [upd_same] at hx
      cases hx
      rcases hborn a n ho with ⟨b, hb⟩ | hmem
      · exact List.mem_append_right _ (h.born j k b n hk hb)
      · exact List.mem_append_left _ (List.mem_map.mpr ⟨n, hmem, rfl⟩)
    · rw [upd_ne _ _ hj] at hx
      exact List.mem_append_right _ (h.born j x a n hx ho)
  · intro j n x hx
    obtain ⟨h1, h2⟩ := ha j n x hx
    obtain ⟨y, a, hy, hya⟩ := ownerOf_exists.mp (h.appr j n x h1)
    refine ownerOf_exists.mpr ?_
    by_cases hj : j = id
    · subst hj
      rw [hk] at hy; cases hy
      obtain ⟨b, hb⟩ := h2 rfl ⟨a, hya⟩
      exact ⟨k', b, by rw [hc, upd_same], hb⟩
    · exact ⟨y, a, by rw [hc, upd_ne _ _ hj]; exact hy, hya⟩

theorem BI.step {c : Cfg} {s s' : St} {op : Op} (h : BI s) (hai : AI c s) (hG : Bridged s op)
    (e : Eff c s op s') : BI s' := by
  cases e with
  | same hc hm hn ha hl =>
    refine ⟨?_, ?_, ?_, ?_, ?_⟩
    · rw [hc]; exact h.coll
    · rw [hc, hm]; exact h.minted
    · rw [hc, hm]; exact h.once
    · rw [hc, hm]; exact h.born
    · intro id n x hx
      rw [ownerOf_congr hc]
      rcases ha id n with h1 | h1 | h1
      · rw [h1] at hx; exact h.appr id n x hx
      · rw [h1] at hx; cases hx
      · obtain ⟨_, _, a, _, _, h2, _⟩ := h1; exact ⟨a, h2⟩
  | @new id k' i hid hnx hi hm ho =>
    have hf := hai.fresh hid
    have hns : ∀ n, (id, n) ∉ s.minted := by
      intro n hn
      obtain ⟨k, hk, _⟩ := h.minted id n hn
      rw [hf] at hk; cases hk
    have hci := CI.new hnx hi hm ho
    have hlt : ∀ a n, Owns k'.owned a n → n < i := by
      intro a n hon
      rcases ho with ⟨_, ho⟩ | ⟨a0, ho⟩
      · rw [ho] at hon; obtain ⟨e, he, _⟩ := hon; cases he
      · rw [ho] at hon
        obtain ⟨e, he, _, hn⟩ := hon
        rw [List.mem_singleton] at he
        subst he
        exact List.mem_range.mp (mem_sortN.mp hn)
    refine ⟨?_, ?_, ?_, ?_, ?_⟩
    · intro j x hx
      change upd s.coll id (some k') j = some x at hx
      by_cases hj : j = id
      · subst hj; rw [upd_same] at hx; cases hx; exact hci
      · rw [upd_ne _ _ hj] at hx; exact h.coll j x hx
    · intro j n hjn
      change ∃ k, upd s.coll id (some k') j = some k ∧ _
      rcases List.mem_append.mp hjn with h1 | h1
      · obtain ⟨m, hm1, hm2⟩ := List.mem_map.mp h1
        cases hm2
        exact ⟨k', upd_same _ _ _, fun _ => by rw [hnx]; exact List.mem_range.mp hm1⟩
      · obtain ⟨x, hx, hb⟩ := h.minted j n h1
        have hj : j ≠ id := by rintro rfl; rw [hf] at hx; cases hx
        exact ⟨x, by rw [upd_ne _ _ hj]; exact hx, hb⟩
    · refine List.pairwise_append.mpr ⟨?_, ?_, ?_⟩
      · rw [List.pairwise_map]
        refine List.Pairwise.imp ?_ List.nodup_range
        intro a b hab he
        simp only [Prod.mk.injEq, true_and] at he
        exact absurd he hab
      · refine List.Pairwise.imp_of_mem ?_ h.once
        intro p q hp hq hpq he x hx
        change upd s.coll id (some k') p.1 = some x at hx
        have hj : p.1 ≠ id := by
          intro hj
          apply hns p.2
          rw [← hj]; exact hp
        rw [upd_ne _ _ hj] at hx
        exact hpq he x hx
      · intro p hp q hq he x' hx'
        obtain ⟨m, hm1, rfl⟩ := List.mem_map.mp hp
        subst he
        exact absurd hq (hns m)
    · intro j x a n hx hon
      change upd s.coll id (some k') j = some x at hx
      by_cases hj : j = id
      · subst hj
        rw [upd_same] at hx
        cases hx
        exact List.mem_append_left _ (List.mem_map.mpr ⟨n, List.mem_range.mpr (hlt a n hon), rfl⟩)
      · rw [upd_ne _ _ hj] at hx
        exact List.mem_append_right _ (h.born j x a n hx hon)
    · intro j n x hx
      obtain ⟨y, a, hy, hya⟩ := ownerOf_exists.mp (h.appr j n x hx)
      have hj : j ≠ id := by rintro rfl; rw [hf] at hy; cases hy
      exact ownerOf_exists.mpr ⟨y, a, by rw [← hy]; exact upd_ne _ _ hj, hya⟩
  | @set id k k' hk ho hg hn hi hm =>
    refine h.set (new := []) hk rfl hg (le_of_eq hn.symm) ((h.coll id k hk).set ho hg hn hi hm) rfl List.nodup_nil
      (fun _ n hx => by cases hx) (fun a n hx => Or.inl ⟨a, by rw [← ho]; exact hx⟩) ?_
    intro j m x hx
    exact ⟨hx, fun _ hy => by rw [ho]; exact hy⟩
  | @transfer id k ns cur new o auth hne hf hk hown hadd =>
    have hno := hai.owners id k hk
    have ht := transfer_owns hno hadd
    refine h.set (new := []) hk rfl rfl (le_refl _) ((h.coll id k hk).transfer hno (fun n hn => (hown n hn).1) hadd)
      rfl List.nodup_nil (fun _ n hx => by cases hx) ?_ ?_
    · intro a n ha
      rcases (ht a n).mp ha with h1 | h1
      · exact Or.inl ⟨a, h1.1⟩
      · exact Or.inl ⟨cur, (hown n h1.2).1⟩
    · intro j m x hx
      simp only [clearApprovals, setColl] at hx
      split at hx
      · cases hx
      · rename_i hj
        refine ⟨hx, ?_⟩
        rintro rfl ⟨a, ha⟩
        exact ⟨a, (ht a m).mpr (Or.inl ⟨ha, fun hc => hj ⟨rfl, hc.2⟩⟩)⟩
  | @burn id k n who auth hlk hf hk hown =>
    refine h.set (new := []) hk rfl rfl (le_refl _) ((h.coll id k hk).burn hown)
      rfl List.nodup_nil (fun _ n hx => by cases hx) ?_ ?_
    · intro a m ha
      exact Or.inl ⟨a, ((burnFrom_owns a m).mp ha).1⟩
    · intro j m x hx
      simp only [clearApprovals, setColl] at hx
      split at hx
      · cases hx
      · rename_i hj
        refine ⟨hx, ?_⟩
        rintro rfl ⟨a, ha⟩
        refine ⟨a, (burnFrom_owns a m).mpr ⟨ha, fun hc => hj ⟨rfl, ?_⟩⟩⟩
        rw [hc.2]; exact List.mem_cons_self
  | @mint who id q rcv ext k o L hop hf hk hq hlim hauth horig hu hcap hmax hfee hadd =>
    refine h.set (new := List.range' k.next q) hk rfl rfl (Nat.le_add_right _ _)
      ((h.coll id k hk).mint horig hmax hadd) rfl List.nodup_range' ?_ ?_ ?_
    · intro _ n hn
      rw [List.mem_range'_1] at hn
      exact hn
    · intro a n ha
      rcases (addUser_owns hadd a n).mp ha with h1 | h1
      · exact Or.inl ⟨a, h1⟩
      · exact Or.inr h1.2
    · intro j m x hx
      refine ⟨hx, fun _ ⟨a, ha⟩ => ⟨a, (addUser_owns hadd a m).mpr (Or.inl ha)⟩⟩
  | @bridged id k o who ns hop hk hadd =>
    subst hop
    have hr := hG k hk
    refine h.set (new := trim k ns) hk rfl rfl (le_refl _)
      ((h.coll id k hk).bridged hr hadd) rfl (trim_nodup k ns) (fun hx => absurd hx hr) ?_ ?_
    · intro a n ha
      rcases (addUser_owns hadd a n).mp ha with h1 | h1
      · exact Or.inl ⟨a, h1⟩
      · exact Or.inr h1.2
    · intro j m x hx
      refine ⟨hx, fun _ ⟨a, ha⟩ => ⟨a, (addUser_owns hadd a m).mpr (Or.inl ha)⟩⟩

theorem Reach.bi {c : Cfg} {s : St} (h : Reach c Bridged s) : BI s := by
  induction h with
  | init hg => exact BI.genesis hg
  | step hr hG hs ih => exact ih.step hr.ai hG (step_eff hs)

/-! ## no repeated serials -/

/-- Nobody holds a token twice. -/
def NI (s : St) : Prop := ∀ id k, s.coll id = some k → ∀ e ∈ k.owned, e.serials.Nodup

theorem NI.set {s s' : St} (h : NI s) {id : Nat} {k' : Coll} (hc : s'.coll = upd s.coll id (some k'))
    (hn : ∀ e ∈ k'.owned, e.serials.Nodup) : NI s' := by
  intro j x hx
  rw [hc] at hx
  by_cases hj : j = id
  · subst hj; rw [upd_same] at hx; cases hx; exact hn
  · rw [upd_ne _ _ hj] at hx; exact h j x hx

theorem NI.step {c : Cfg} {s s' : St} {op : Op} (h : NI s) (hai : AI c s) (hbi : BI s) (hG : NoRepeat s op)
    (e : Eff c s op s') : NI s' := by
  cases e with
  | same hc hm hn ha hl => intro id k hk; rw [hc] at hk; exact h id k hk
  | @new id k' i hid hnx hi hm ho =>
    refine h.set (id := id) (k' := k') rfl ?_
    rcases ho with ⟨_, ho⟩ | ⟨a, ho⟩
    · rw [ho]; intro e he; cases he
    · rw [ho]
      intro e he
      rw [List.mem_singleton] at he
      subst he
      exact (sortN_perm _).nodup_iff.mpr List.nodup_range
  | @set id k k' hk ho hg hn hi hm => exact h.set (id := id) (k' := k') rfl (by rw [ho]; exact h id k hk)
  | @transfer id k ns cur new o auth hne hf hk hown hadd =>
    have hno := hai.owners id k hk
    have hnd : ns.Nodup := by
      rcases auth with rfl | ⟨caller, n, rfl, rfl, _⟩
      · exact hG.2
      · exact List.nodup_singleton _
    refine NI.set (s := s) (id := id) (k' := { k with owned := o }) h rfl ?_
    refine addUser_nodup hadd (removeUser_nodup hno (h id k hk)) hnd ?_
    intro n hn hc
    have := ((removeUser_owns hno new n).mp hc).1
    exact hne ((hbi.coll id k hk).uniq cur new n (hown n hn).1 this)
  | @burn id k n who auth hlk hf hk hown =>
    refine NI.set (s := s) (id := id) (k' := { k with issuance := k.issuance - 1, owned := burnFrom k.owned who n }) h rfl ?_
    exact burnFrom_nodup (h id k hk)
  | @mint who id q rcv ext k o L hop hf hk hq hlim hauth horig hu hcap hmax hfee hadd =>
    refine NI.set (s := s) (id := id) (k' := { k with next := k.next + q, issuance := k.issuance + q, owned := o }) h rfl ?_
    refine addUser_nodup hadd (h id k hk) List.nodup_range' ?_
    intro n hn hc
    have := (hbi.coll id k hk).below horig _ n hc
    rw [List.mem_range'_1] at hn
    omega
  | @bridged id k o who ns hop hk hadd =>
    refine NI.set (s := s) (id := id) (k' := { k with issuance := k.issuance + (trim k ns).length, owned := o }) h rfl ?_
    exact addUser_nodup hadd (h id k hk) (trim_nodup k ns) (fun n hn => (mem_trim.mp hn).2 _)

theorem Reach.bridged {c : Cfg} {s : St} (h : Reach c NoRepeat s) : Reach c Bridged s :=
  h.mono (fun _ _ hG => hG.1)

theorem Reach.ni {c : Cfg} {s : St} (h : Reach c NoRepeat s) : NI s := by
  induction h with
  | init hg => intro id k hk; rw [hg.coll] at hk; cases hk
  | step hr hG hs ih => exact ih.step hr.ai hr.bridged.bi hG (step_eff hs)

end Verif.Nft
