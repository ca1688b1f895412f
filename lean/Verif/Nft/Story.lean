import Verif.Nft.Log
import Verif.Nft.Inv

/-!
# C234: what the events of the NFT pallet tell
-/

namespace Verif.Nft

/-! ## Specification: what somebody who reads the events knows -/

/-- What the events say of a collection. -/
structure Seen where
  owner : Acct
  royalties : Option (List (Acct × Nat))
  maxIss : Option Nat
  origin : Chain
  xls20 : Bool
deriving DecidableEq

/-- The picture of a reader. -/
structure Picture where
  colls : Nat → Option Seen
  /-- who has a token -/
  holder : Nat → Nat → Option Acct
  /-- how many tokens a collection has -/
  issued : Nat → Nat
  flags : Nat → Flags
  pub : Nat → PubMint

/-- The reader gives the tokens `ns` of a collection to `w`. -/
def Picture.give (p : Picture) (id : Nat) (ns : List Nat) (w : Option Acct) : Picture :=
  { p with holder := fun j n => if j = id ∧ n ∈ ns then w else p.holder j n }

/-- The reader changes what they know of a collection. -/
def Picture.note (p : Picture) (id : Nat) (f : Seen → Seen) : Picture := { p with colls := upd p.colls id ((p.colls id).map f) }

/-- What the reader makes of one event. The first tokens of a new collection are taken to be its owner's. -/
def follow (p : Picture) : Ev → Picture
  | .create id i m o r g x =>
    { p.give id (List.range i) (some o) with
      colls := upd p.colls id (some ⟨o, r, m, g, x⟩)
      issued := upd p.issued id i }
  | .toggle id b => { p with pub := upd p.pub id { p.pub id with enabled := b } }
  | .mint id a b w =>
    { p.give id (List.range' a (b + 1 - a)) (some w) with issued := upd p.issued id (p.issued id + (b + 1 - a)) }
  | .price id x => { p with pub := upd p.pub id { p.pub id with price := x } }
  | .bridgedMint id ns w => { p.give id ns (some w) with issued := upd p.issued id (p.issued id + ns.length) }
  | .ownerSet id w => p.note id (fun k => { k with owner := w })
  | .maxIssuance id m => p.note id (fun k => { k with maxIss := some m })
  | .royalties id r => p.note id (fun k => { k with royalties := some r })
  | .transfer _ id ns w => p.give id ns (some w)
  | .burn id n => { p.give id [n] none with issued := upd p.issued id (p.issued id - 1) }
  | .claimed w id => p.note id (fun k => { k with owner := w })
  | .flags id f => { p with flags := upd p.flags id f }
  | .xls20 id => p.note id (fun k => { k with xls20 := true })

/-- The picture the storage gives. -/
def picture (s : St) : Picture where
  colls := fun id => (s.coll id).map (fun k => ⟨k.owner, k.royalties, k.maxIss, k.origin, k.xls20⟩)
  holder := ownerOf s
  issued := fun id => ((s.coll id).map Coll.issuance).getD 0
  flags := s.flags
  pub := s.pubMint

/-- An event names a token. -/
def Ev.names (id n : Nat) : Ev → Bool
  | .create j i _ _ _ _ _ => decide (j = id ∧ n < i)
  | .mint j a b _ => decide (j = id ∧ a ≤ n ∧ n ≤ b)
  | .bridgedMint j ns _ => decide (j = id ∧ n ∈ ns)
  | .transfer _ j ns _ => decide (j = id ∧ n ∈ ns)
  | .burn j m => decide (j = id ∧ m = n)
  | _ => false

/-- A call that says nothing, or not enough, about who has a token afterwards: the collection is created with the token for
somebody else than its owner, or a bridge burns the token. -/
inductive Silent (c : Cfg) (s : St) (id n : Nat) : Call → Prop where
  | given {o w : Acct} {i : Nat} {m : Option Nat} {r : Option (List (Acct × Nat))} {x : Bool} :
      w ≠ o → n < i → nextAssetUuid s.nextId c.chainId = some id → Silent c s id n (.act (.create o i m (some w) r x))
  | withdrawn {w : Acct} : Silent c s id n (.bridgeBurn w id n)

/-- The bridges mint only into collections that came over a bridge (see `Bridged`). -/
def Usual (s : St) (k : Call) : Prop := Bridged s (k.op s)

/-- As `Usual`, and no call is silent about a token. -/
def Open (c : Cfg) (s : St) (k : Call) : Prop := Usual s k ∧ ∀ id n, ¬ Silent c s id n k

/-! ## Each call -/

theorem call_ok {c : Cfg} {s s' : St} {k : Call} (h : call c s k = .ok s') :
    k.real = true ∧ step c s (k.op s) = .ok s' := by
  simp only [call, bind_ok, ensure_ok] at h
  obtain ⟨_, h1, h2⟩ := h
  exact ⟨h1, h2⟩

theorem ownerOf_set {s s' : St} {id : Nat} {k' : Coll} (hc : s'.coll = upd s.coll id (some k')) (j n : Nat) :
    ownerOf s' j n = if j = id then getOwner k'.owned n else ownerOf s j n := by
  unfold ownerOf
  rw [hc]
  by_cases e : j = id
  · subst e; rw [upd_same, if_pos rfl]; rfl
  · rw [upd_ne _ _ e, if_neg e]

/-- Two records with the same owners of a token. -/
theorem getOwner_eq {o o' : List Own} (hu : ∀ a b n, Owns o a n → Owns o b n → a = b)
    (hu' : ∀ a b n, Owns o' a n → Owns o' b n → a = b) {n : Nat} (h : ∀ a, Owns o' a n ↔ Owns o a n) :
    getOwner o' n = getOwner o n := by
  cases e : getOwner o n with
  | none =>
    refine getOwner_none.mpr fun a ha => ?_
    exact getOwner_none.mp e a ((h a).mp ha)
  | some a => exact (getOwner_iff hu').mpr ((h a).mpr (getOwner_owns e))

/-- The picture `p` is right after an operation, except for tokens the operation is silent about. -/
structure Right (c : Cfg) (s : St) (k : Call) (p : Picture) (s' : St) : Prop where
  colls : (picture s').colls = p.colls
  issued : (picture s').issued = p.issued
  flags : (picture s').flags = p.flags
  pub : (picture s').pub = p.pub
  holder : ∀ id n, ¬ Silent c s id n k → ownerOf s' id n = p.holder id n

/-- The picture after the event of a call, if there is one. -/
def after (p : Picture) (e : Option Ev) : Picture := e.toList.foldl follow p

theorem Right.of_eq {c : Cfg} {s s' : St} {k : Call} {p : Picture} (h : picture s' = p) : Right c s k p s' := by
  subst h
  exact ⟨rfl, rfl, rfl, rfl, fun _ _ _ => rfl⟩

theorem picture_same {s s' : St} (hc : s'.coll = s.coll) (hf : s'.flags = s.flags) (hp : s'.pubMint = s.pubMint) :
    picture s' = picture s := by
  have : ownerOf s' = ownerOf s := by funext j n; exact ownerOf_congr hc j n
  unfold picture
  rw [hc, hf, hp, this]

theorem picture_set {s : St} {id : Nat} {k k' : Coll} (hk : s.coll id = some k) (ho : k'.owned = k.owned)
    (hi : k'.issuance = k.issuance) {f : Seen → Seen}
    (hf : (⟨k'.owner, k'.royalties, k'.maxIss, k'.origin, k'.xls20⟩ : Seen) =
      f ⟨k.owner, k.royalties, k.maxIss, k.origin, k.xls20⟩) :
    picture (setColl s id k') = (picture s).note id f := by
  have h1 : ownerOf (setColl s id k') = ownerOf s := by
    funext j n
    rw [ownerOf_set (s := s) (id := id) (k' := k') rfl]
    split
    · rename_i e; subst e; rw [ho, ownerOf_some hk]
    · rfl
  have h2 : (fun j => (((setColl s id k').coll j).map Coll.issuance).getD 0) = fun j => ((s.coll j).map Coll.issuance).getD 0 := by
    funext j
    show ((upd s.coll id (some k') j).map Coll.issuance).getD 0 = _
    by_cases e : j = id
    · subst e; rw [upd_same, hk]; exact hi
    · rw [upd_ne _ _ e]
  have h3 : (picture (setColl s id k')).colls = ((picture s).note id f).colls := by
    funext j
    show (upd s.coll id (some k') j).map _ = upd (picture s).colls id _ j
    by_cases e : j = id
    · subst e
      rw [upd_same, upd_same]
      show _ = Option.map f ((s.coll j).map _)
      rw [hk]
      exact congrArg some hf
    · rw [upd_ne _ _ e, upd_ne _ _ e]; rfl
  show Picture.mk _ _ _ _ _ = Picture.mk _ _ _ _ _
  congr 1

/-- Tokens of an existing collection change hands. -/
theorem picture_give {s s' : St} {id : Nat} {k k' : Coll} {ns : List Nat} {w : Option Acct} (hk : s.coll id = some k)
    (hc : s'.coll = upd s.coll id (some k')) (hf : s'.flags = s.flags) (hp : s'.pubMint = s.pubMint)
    (he : (⟨k'.owner, k'.royalties, k'.maxIss, k'.origin, k'.xls20⟩ : Seen) =
      ⟨k.owner, k.royalties, k.maxIss, k.origin, k.xls20⟩)
    (ho : ∀ n, getOwner k'.owned n = if n ∈ ns then w else getOwner k.owned n) :
    picture s' = { (picture s).give id ns w with issued := upd (picture s).issued id k'.issuance } := by
  have h1 : ownerOf s' = ((picture s).give id ns w).holder := by
    funext j n
    rw [ownerOf_set hc]
    show _ = if j = id ∧ n ∈ ns then w else ownerOf s j n
    by_cases e : j = id
    · subst e
      rw [if_pos rfl, ho n, ownerOf_some hk]
      by_cases e2 : n ∈ ns
      · rw [if_pos e2, if_pos ⟨rfl, e2⟩]
      · rw [if_neg e2, if_neg (fun h => e2 h.2)]
    · rw [if_neg e, if_neg (fun h => e h.1)]
  have h2 : (picture s').issued = upd (picture s).issued id k'.issuance := by
    funext j
    show ((s'.coll j).map Coll.issuance).getD 0 = _
    rw [hc]
    by_cases e : j = id
    · subst e; rw [upd_same, upd_same]; rfl
    · rw [upd_ne _ _ e, upd_ne _ _ e]; rfl
  have h3 : (picture s').colls = (picture s).colls := by
    funext j
    show (s'.coll j).map _ = (s.coll j).map _
    rw [hc]
    by_cases e : j = id
    · subst e; rw [upd_same, hk]; exact congrArg some he
    · rw [upd_ne _ _ e]
  show Picture.mk _ _ _ _ _ = Picture.mk _ _ _ _ _
  congr 1

theorem give_issued {s : St} {id : Nat} {k : Coll} (hk : s.coll id = some k) :
    (picture s).issued id = k.issuance := by
  show ((s.coll id).map Coll.issuance).getD 0 = _
  rw [hk]; rfl

/-- The owners after a transfer. -/
theorem getOwner_transfer {max : Nat} {o o' : List Own} {cur new : Acct} {ns : List Nat} (hn : (o.map Own.owner).Nodup)
    (hu : ∀ a b n, Owns o a n → Owns o b n → a = b) (hu' : ∀ a b n, Owns o' a n → Owns o' b n → a = b)
    (hadd : addUser max (removeUser o cur ns) new ns = .ok o') (n : Nat) :
    getOwner o' n = if n ∈ ns then some new else getOwner o n := by
  have ht := transfer_owns hn hadd
  split
  · rename_i e
    exact (getOwner_iff hu').mpr ((ht new n).mpr (Or.inr ⟨rfl, e⟩))
  · rename_i e
    refine getOwner_eq hu hu' fun a => ?_
    rw [ht a n]
    constructor
    · rintro (h1 | h1)
      · exact h1.1
      · exact absurd h1.2 e
    · intro h1; exact Or.inl ⟨h1, fun h2 => e h2.2⟩

/-- The owners after a mint. -/
theorem getOwner_mint {max : Nat} {o o' : List Own} {who : Acct} {ns : List Nat}
    (hu : ∀ a b n, Owns o a n → Owns o b n → a = b) (hu' : ∀ a b n, Owns o' a n → Owns o' b n → a = b)
    (hadd : addUser max o who ns = .ok o') (n : Nat) :
    getOwner o' n = if n ∈ ns then some who else getOwner o n := by
  have ht := fun a => addUser_owns hadd (a := a) (n := n)
  split
  · rename_i e
    exact (getOwner_iff hu').mpr ((ht who).mpr (Or.inr ⟨rfl, e⟩))
  · rename_i e
    refine getOwner_eq hu hu' fun a => ?_
    rw [ht a]
    constructor
    · rintro (h1 | h1)
      · exact h1
      · exact absurd h1.2 e
    · intro h1; exact Or.inl h1

/-- The owners after a burn. -/
theorem getOwner_burn {o : List Own} {who : Acct} {m : Nat} (hu : ∀ a b n, Owns o a n → Owns o b n → a = b)
    (hu' : ∀ a b n, Owns (burnFrom o who m) a n → Owns (burnFrom o who m) b n → a = b) (hw : Owns o who m) (n : Nat) :
    getOwner (burnFrom o who m) n = if n ∈ [m] then none else getOwner o n := by
  split
  · rename_i e
    obtain rfl : n = m := List.mem_singleton.mp e
    refine getOwner_none.mpr fun a ha => ?_
    rw [burnFrom_owns] at ha
    have := hu a who n ha.1 hw
    exact ha.2 ⟨this, rfl⟩
  · rename_i e
    refine getOwner_eq hu hu' fun a => ?_
    rw [burnFrom_owns]
    exact ⟨fun h => h.1, fun h => ⟨h, fun h2 => e (List.mem_singleton.mpr h2.2)⟩⟩

theorem transfer_right {c : Cfg} {s s' : St} {id : Nat} {ns : List Nat} {cur new : Acct} (hai : AI c s) (hbi : BI s)
    (hbi' : BI s') (h : doTransfer c s id ns cur new = .ok s') :
    picture s' = follow (picture s) (.transfer cur id ns new) := by
  simp only [doTransfer, bind_ok, ensure_ok, okOr_ok, pure_ok] at h
  obtain ⟨_, _, _, _, _, _, k, hk, _, _, o, ho, rfl⟩ := h
  have hk' : (clearApprovals (setColl s id { k with owned := o }) id ns).coll id = some { k with owned := o } := upd_same _ _ _
  have e := picture_give (s := s) (s' := clearApprovals (setColl s id { k with owned := o }) id ns) (k := k)
    (k' := { k with owned := o }) (ns := ns) (w := some new) hk rfl rfl rfl rfl
    (getOwner_transfer (hai.owners id k hk) (hbi.coll id k hk).uniq (hbi'.coll id _ hk').uniq ho)
  rw [e]
  show Picture.mk _ _ _ _ _ = Picture.mk _ _ _ _ _
  congr 1
  funext j
  show upd _ id k.issuance j = (picture s).issued j
  by_cases e : j = id
  · subst e; rw [upd_same, give_issued hk]
  · rw [upd_ne _ _ e]

theorem burn_right {s s' : St} {id n : Nat} {who : Acct} (hbi : BI s) (hbi' : BI s')
    (h : doBurn s who id n = .ok s') : picture s' = follow (picture s) (.burn id n) := by
  simp only [doBurn, bind_ok, ensure_ok, okOr_ok, pure_ok] at h
  obtain ⟨_, _, _, _, k, hk, _, ho, rfl⟩ := h
  have hk' : (clearApprovals (setColl s id { k with
      issuance := k.issuance - 1
      owned := burnFrom k.owned who n }) id [n]).coll id = some { k with
      issuance := k.issuance - 1
      owned := burnFrom k.owned who n } := upd_same _ _ _
  have e := picture_give (s := s) (s' := clearApprovals (setColl s id { k with
      issuance := k.issuance - 1
      owned := burnFrom k.owned who n }) id [n]) (k := k) (k' := { k with
      issuance := k.issuance - 1
      owned := burnFrom k.owned who n }) (ns := [n]) (w := none) hk rfl rfl rfl rfl
    (getOwner_burn (hbi.coll id k hk).uniq (hbi'.coll id _ hk').uniq (isTokenOwner_iff.mp ho))
  rw [e]
  show _ = { (picture s).give id [n] none with issued := upd (picture s).issued id ((picture s).issued id - 1) }
  rw [give_issued hk]

theorem mint_right {c : Cfg} {s s' : St} {who : Acct} {id q : Nat} {t : Option Acct} {x : Bool} (hbi : BI s)
    (hbi' : BI s') (h : mint c s who id q t x = .ok s') : picture s' = after (picture s) (mintEv s id q (t.getD who)) := by
  simp only [mint, preMint, doMint, bind_ok, ensure_ok, okOr_ok, pure_ok] at h
  obtain ⟨_, hl, _, hf, k, hk, ns, ⟨_, hq, _, ha, _, _, _, hr, _, hu, _, hc, _, hm, rfl⟩, L, hL, s1,
    ⟨_, _, _, _, o, ho, rfl⟩, _, _, rfl⟩ := h
  simp only [List.length_range'] at hbi' ⊢
  have hk' := upd_same s.coll id (some { k with
      next := k.next + q
      issuance := k.issuance + q
      owned := o })
  have e := picture_give (s := s) (s' := { setColl { s with ledger := L } id { k with
        next := k.next + q
        issuance := k.issuance + q
        owned := o } with minted := (List.range' k.next q).map (fun n => (id, n)) ++ s.minted }) (k := k) (k' := { k with
      next := k.next + q
      issuance := k.issuance + q
      owned := o }) (ns := List.range' k.next q) (w := some (t.getD who)) hk rfl rfl rfl rfl
    (getOwner_mint (hbi.coll id k hk).uniq (hbi'.coll id _ hk').uniq ho)
  refine e.trans ?_
  unfold mintEv
  rw [hk]
  show _ = { (picture s).give id (List.range' k.next (k.next + q - 1 + 1 - k.next)) (some (t.getD who)) with
    issued := upd (picture s).issued id ((picture s).issued id + (k.next + q - 1 + 1 - k.next)) }
  rw [give_issued hk, show k.next + q - 1 + 1 - k.next = q by omega]

theorem bridged_right {c : Cfg} {s s' : St} {who : Acct} {id : Nat} {ns : List Nat} (hbi : BI s)
    (hbi' : BI s') (h : bridgedMint c s id who ns = .ok s') : picture s' = after (picture s) (bridgedEv c s id who ns) := by
  unfold bridgedMint at h
  unfold bridgedEv
  split at h
  · rename_i e; cases h; rw [if_pos e]; rfl
  · rename_i e
    rw [if_neg e]
    cases hk : s.coll id with
    | none => rw [hk] at h; cases h; rfl
    | some k =>
      rw [hk] at h
      simp only at h ⊢
      split at h
      · rename_i e2; cases h; rw [if_pos e2]; rfl
      · rename_i e2
        rw [if_neg e2]
        simp only [doMint, bind_ok, ensure_ok, pure_ok] at h
        obtain ⟨_, _, _, _, o, ho, rfl⟩ := h
        have hk' := upd_same s.coll id (some { k with
          issuance := k.issuance + (trim k ns).length
          owned := o })
        have e := picture_give (s := s) (s' := { setColl s id { k with
            issuance := k.issuance + (trim k ns).length
            owned := o } with minted := (trim k ns).map (fun n => (id, n)) ++ s.minted }) (k := k) (k' := { k with
          issuance := k.issuance + (trim k ns).length
          owned := o }) (ns := trim k ns) (w := some who) hk rfl rfl rfl rfl
          (getOwner_mint (hbi.coll id k hk).uniq (hbi'.coll id _ hk').uniq ho)
        refine e.trans ?_
        show _ = { (picture s).give id (trim k ns) (some who) with
          issued := upd (picture s).issued id ((picture s).issued id + (trim k ns).length) }
        rw [give_issued hk]

/-- A collection is created. The owners of its first tokens are as the reader thinks if they are its owner's. -/
theorem create_right {c : Cfg} {s s' : St} {owner : Acct} {i : Nat} {m : Option Nat} {t : Option Acct}
    {r : Option (List (Acct × Nat))} {g : Chain} {x : Bool} (hai : AI c s)
    (h : doCreate c s owner i m t r g x = .ok s') :
    ∃ id p, nextAssetUuid s.nextId c.chainId = some id ∧ after (picture s) (createEv c s owner i m r g x) = p ∧
      (picture s').colls = p.colls ∧ (picture s').issued = p.issued ∧ (picture s').flags = p.flags ∧
      (picture s').pub = p.pub ∧
      ∀ j n, ownerOf s' j n = if j = id ∧ n < i then some (t.getD owner) else ownerOf s j n := by
  simp only [doCreate, nextUuid, bind_ok, ensure_ok, okOr_ok, pure_ok] at h
  obtain ⟨id, hid, _, _, _, _, o, ho, rfl⟩ := h
  refine ⟨id, _, hid, rfl, ?_, ?_, ?_, ?_, ?_⟩
  · unfold createEv
    rw [hid]
    funext j
    show (upd s.coll id _ j).map _ = upd (picture s).colls id _ j
    by_cases e : j = id
    · subst e; rw [upd_same, upd_same]; rfl
    · rw [upd_ne _ _ e, upd_ne _ _ e]; rfl
  · unfold createEv
    rw [hid]
    funext j
    show ((upd s.coll id _ j).map Coll.issuance).getD 0 = upd (picture s).issued id i j
    by_cases e : j = id
    · subst e; rw [upd_same, upd_same]; rfl
    · rw [upd_ne _ _ e, upd_ne _ _ e]; rfl
  · unfold createEv
    rw [hid]
    rfl
  · unfold createEv
    rw [hid]
    rfl
  · intro j n
    have hfree : s.coll id = none := hai.fresh hid
    rw [ownerOf_set (s := s) (id := id) (k' := ⟨owner, r, m, g, i, i, x, o⟩) rfl]
    by_cases e : j = id
    · subst e
      rw [if_pos rfl]
      have hnone : ownerOf s j n = none := by unfold ownerOf; rw [hfree]; rfl
      rw [hnone]
      unfold firstOwned at ho
      split at ho
      · rename_i h0
        cases ho
        rw [if_neg (fun h => by omega)]
        rfl
      · simp only [bind_ok, ensure_ok, pure_ok] at ho
        obtain ⟨_, _, _, _, _, _, rfl⟩ := ho
        unfold getOwner
        by_cases hn : n < i
        · rw [if_pos ⟨rfl, hn⟩, List.find?_cons_of_pos]
          · rfl
          · exact decide_eq_true (mem_sortN.mpr (List.mem_range.mpr hn))
        · rw [if_neg (fun h => hn h.2), List.find?_cons_of_neg]
          · rfl
          · intro hx
            exact hn (List.mem_range.mp (mem_sortN.mp (of_decide_eq_true hx)))
    · rw [if_neg e, if_neg (fun h => e h.1)]

/-- The event of a call that comes from outside makes the picture right. -/
theorem act_right {c : Cfg} {s s' : St} {op : Op} (hai : AI c s) (hbi : BI s) (hbi' : BI s')
    (hr : (Call.act op).real = true) (h : step c s op = .ok s') :
    Right c s (.act op) (after (picture s) (opEv c s op)) s' := by
  cases op with
  | create o i m t r x =>
    obtain ⟨id, p, hid, hp, h1, h2, h3, h4, h5⟩ := create_right hai h
    refine ⟨h1.trans (by rw [← hp]; rfl), h2.trans (by rw [← hp]; rfl), h3.trans (by rw [← hp]; rfl),
      h4.trans (by rw [← hp]; rfl), ?_⟩
    intro j n hs
    rw [h5]
    show _ = (after (picture s) (createEv c s o i m r .root x)).holder j n
    unfold createEv
    rw [hid]
    show _ = if j = id ∧ n ∈ List.range i then some o else ownerOf s j n
    simp only [List.mem_range]
    by_cases e : j = id ∧ n < i
    · rw [if_pos e, if_pos e]
      cases t with
      | none => rfl
      | some w =>
        by_cases hw : w = o
        · subst hw; rfl
        · exact absurd (.given hw e.2 (e.1 ▸ hid)) hs
    · rw [if_neg e, if_neg e]
  | createBridged o g x =>
    simp only [step, bind_ok, ensure_ok] at h
    obtain ⟨_, _, h⟩ := h
    obtain ⟨id, p, hid, hp, h1, h2, h3, h4, h5⟩ := create_right hai h
    refine ⟨h1.trans (by rw [← hp]; rfl), h2.trans (by rw [← hp]; rfl), h3.trans (by rw [← hp]; rfl),
      h4.trans (by rw [← hp]; rfl), ?_⟩
    intro j n hs
    rw [h5, if_neg (fun h => by omega)]
    show _ = (after (picture s) (createEv c s o 0 none none g x)).holder j n
    unfold createEv
    rw [hid]
    show _ = if j = id ∧ n ∈ List.range 0 then some o else ownerOf s j n
    rw [if_neg (fun h => by simp at h)]
  | mint w id q t e => exact .of_eq (mint_right hbi hbi' h)
  | bridgedMint id w ns => exact .of_eq (bridged_right hbi hbi' h)
  | transfer w id ns n => exact .of_eq (transfer_right hai hbi hbi' h)
  | burn w id n => exact .of_eq (burn_right hbi hbi' h)
  | setOwner w id n =>
    simp only [step, setOwner, bind_ok, ensure_ok, okOr_ok, pure_ok] at h
    obtain ⟨k, hk, _, _, rfl⟩ := h
    exact .of_eq (picture_set (k' := { k with owner := n }) (f := fun k => { k with owner := n }) hk rfl rfl rfl)
  | claimUnowned id n =>
    simp only [step, claimUnowned, bind_ok, ensure_ok, okOr_ok, pure_ok] at h
    obtain ⟨k, hk, _, _, rfl⟩ := h
    exact .of_eq (picture_set (k' := { k with owner := n }) (f := fun k => { k with owner := n }) hk rfl rfl rfl)
  | setMaxIssuance w id m =>
    simp only [step, setMaxIssuance, bind_ok, ensure_ok, okOr_ok, pure_ok] at h
    obtain ⟨k, hk, _, _, _, _, _, _, _, _, rfl⟩ := h
    exact .of_eq (picture_set (k' := { k with maxIss := some m }) (f := fun k => { k with maxIss := some m }) hk rfl rfl rfl)
  | setPubMint w id p => cases hr
  | setRoyalties w id r =>
    simp only [step, setRoyalties, bind_ok, ensure_ok, okOr_ok, pure_ok] at h
    obtain ⟨k, hk, _, _, _, _, rfl⟩ := h
    exact .of_eq (picture_set (k' := { k with royalties := some r }) (f := fun k => { k with royalties := some r }) hk rfl rfl rfl)
  | setFlags w id f =>
    simp only [step, setFlags, bind_ok, ensure_ok, okOr_ok, pure_ok] at h
    obtain ⟨k, hk, _, _, rfl⟩ := h
    exact .of_eq rfl
  | enableXls20 w id =>
    simp only [step, enableXls20, bind_ok, ensure_ok, okOr_ok, pure_ok] at h
    obtain ⟨k, hk, _, _, _, _, rfl⟩ := h
    exact .of_eq (picture_set (k' := { k with xls20 := true }) (f := fun k => { k with xls20 := true }) hk rfl rfl rfl)
  | takeUuid =>
    simp only [step, takeUuid, bind_ok, ensure_ok, pure_ok] at h
    obtain ⟨_, _, _, _, rfl⟩ := h
    exact .of_eq rfl
  | setLock w id n l =>
    simp only [step, setLock, bind_ok, ensure_ok, pure_ok] at h
    obtain ⟨_, _, _, _, rfl⟩ := h
    exact .of_eq rfl
  | removeLock id n => cases h; exact .of_eq rfl
  | approve a b id n =>
    simp only [step, approve, bind_ok, ensure_ok, okOr_ok, pure_ok] at h
    obtain ⟨_, _, _, _, _, _, rfl⟩ := h
    exact .of_eq rfl
  | removeApproval w id n =>
    simp only [step, removeApproval, bind_ok, ensure_ok, pure_ok] at h
    obtain ⟨_, _, _, _, rfl⟩ := h
    exact .of_eq rfl
  | approveAll a b id ok =>
    simp only [step, approveAll, bind_ok, ensure_ok, pure_ok] at h
    obtain ⟨_, _, rfl⟩ := h
    exact .of_eq rfl
  | transferFrom a id n f t =>
    simp only [step, transferFrom, bind_ok, ensure_ok] at h
    obtain ⟨_, _, h⟩ := h
    exact .of_eq (transfer_right hai hbi hbi' h)
  | burnPrecompile a id n =>
    simp only [step, burnPrecompile, bind_ok, ensure_ok, okOr_ok] at h
    obtain ⟨_, _, _, _, h⟩ := h
    exact .of_eq (burn_right hbi hbi' h)
  | ledger L => cases h; exact .of_eq rfl

/-- What an announced change of the public minting rules does. -/
theorem pub_right {s s' : St} {w : Acct} {id : Nat} {p : PubMint} (h : setPubMint s w id p = .ok s') :
    picture s' = { picture s with pub := upd s.pubMint id p } := by
  simp only [setPubMint, bind_ok, ensure_ok, okOr_ok, pure_ok] at h
  obtain ⟨k, hk, _, _, rfl⟩ := h
  rfl

/-! ## Any history -/

theorem after_colls (p q : Picture) (e : Option Ev) (h : p.colls = q.colls) : (after p e).colls = (after q e).colls := by
  cases e with
  | none => exact h
  | some e => cases e <;> simp only [after, Option.toList, List.foldl, follow, Picture.give, Picture.note, h]

theorem after_flags (p q : Picture) (e : Option Ev) (h : p.flags = q.flags) : (after p e).flags = (after q e).flags := by
  cases e with
  | none => exact h
  | some e => cases e <;> simp only [after, Option.toList, List.foldl, follow, Picture.give, Picture.note, h]

theorem after_pub (p q : Picture) (e : Option Ev) (h : p.pub = q.pub) : (after p e).pub = (after q e).pub := by
  cases e with
  | none => exact h
  | some e => cases e <;> simp only [after, Option.toList, List.foldl, follow, Picture.give, Picture.note, h]

/-- Counting on from a larger number gives a larger number. -/
theorem after_issued (p q : Picture) (e : Option Ev) (h : ∀ id, p.issued id ≤ q.issued id) (id : Nat) :
    (after p e).issued id ≤ (after q e).issued id := by
  have hu : ∀ (j x y : Nat), x ≤ y → upd p.issued j x id ≤ upd q.issued j y id := by
    intro j x y hxy
    by_cases e : id = j
    · subst e; rw [upd_same, upd_same]; exact hxy
    · rw [upd_ne _ _ e, upd_ne _ _ e]; exact h id
  cases e with
  | none => exact h id
  | some e =>
    cases e with
    | create j i m o r g x => exact hu j _ _ (le_refl _)
    | mint j a b w => exact hu j _ _ (Nat.add_le_add_right (h j) _)
    | bridgedMint j ns w => exact hu j _ _ (Nat.add_le_add_right (h j) _)
    | burn j n => exact hu j _ _ (Nat.sub_le_sub_right (h j) _)
    | _ => exact h id

/-- An event that does not name a token leaves it with the reader's holder; one that names it decides. -/
theorem follow_holder (p q : Picture) (e : Ev) (id n : Nat) :
    (e.names id n = false → (follow p e).holder id n = p.holder id n) ∧
    (e.names id n = true → (follow p e).holder id n = (follow q e).holder id n) := by
  have key : ∀ (j : Nat) (ns : List Nat) (w : Option Acct) (b : Bool), (b = true ↔ j = id ∧ n ∈ ns) →
      (b = false → (p.give j ns w).holder id n = p.holder id n) ∧
      (b = true → (p.give j ns w).holder id n = (q.give j ns w).holder id n) := by
    intro j ns w b hb
    constructor
    · intro h
      show (if id = j ∧ n ∈ ns then w else p.holder id n) = _
      rw [if_neg]
      rintro ⟨rfl, h2⟩
      rw [hb.mpr ⟨rfl, h2⟩] at h
      cases h
    · intro h
      obtain ⟨rfl, h2⟩ := hb.mp h
      show (if j = j ∧ n ∈ ns then w else p.holder j n) = if j = j ∧ n ∈ ns then w else q.holder j n
      rw [if_pos ⟨rfl, h2⟩, if_pos ⟨rfl, h2⟩]
  cases e with
  | create j i m o r g x => exact key j (List.range i) (some o) _ (by simp [Ev.names])
  | mint j a b w =>
    refine key j (List.range' a (b + 1 - a)) (some w) _ ?_
    simp only [Ev.names, decide_eq_true_eq, List.mem_range'_1]
    constructor
    · rintro ⟨h1, h2, h3⟩; exact ⟨h1, h2, by omega⟩
    · rintro ⟨h1, h2, h3⟩; exact ⟨h1, h2, by omega⟩
  | bridgedMint j ns w => exact key j ns (some w) _ (by simp [Ev.names])
  | transfer o j ns w => exact key j ns (some w) _ (by simp [Ev.names])
  | burn j m =>
    refine key j [m] none _ ?_
    simp only [Ev.names, decide_eq_true_eq, List.mem_singleton]
    exact ⟨fun h => ⟨h.1, h.2.symm⟩, fun h => ⟨h.1, h.2.symm⟩⟩
  | _ => exact ⟨fun _ => rfl, fun h => by cases h⟩

end Verif.Nft
