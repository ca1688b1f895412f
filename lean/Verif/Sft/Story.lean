import Verif.Sft.Log
import Verif.Sft.Inv

/-!
# C235: whoever follows the events of the SFT pallet knows who has how much of every token
-/

namespace Verif.Sft

open Verif.Nft (Flags PubMint)

/-! ## Specification: what somebody who reads the events knows -/

/-- The picture of a reader. -/
structure Picture where
  /-- owner and royalties of a collection -/
  colls : Nat → Option (Acct × Option (List (Acct × Nat)))
  /-- limit and supply of a token -/
  toks : Nat → Nat → Option (Option Nat × Nat)
  /-- how much of a token an account has, on sale or not -/
  held : Nat → Nat → Acct → Nat
  flags : Nat → Flags
  pub : Nat → Nat → PubMint

/-- How much of token `n` a list of tokens and a list of quantities name together; a token may occur more than once. -/
def amount (ns qs : List Nat) (n : Nat) : Nat := (((ns.zip qs).filter (fun x => decide (x.1 = n))).map Prod.snd).sum

/-- What the reader makes of one event. -/
def follow (p : Picture) : Ev → Picture
  | .create id o r => { p with colls := upd p.colls id (some (o, r)) }
  | .tokenCreate id n i m o =>
    { p with
      toks := upd p.toks id (upd (p.toks id) n (some (m, i)))
      held := upd p.held id (upd (p.held id) n (fun a => if a = o then i else 0)) }
  | .mint id ns qs o =>
    { p with
      toks := upd p.toks id (fun n => (p.toks id n).map (fun t => (t.1, t.2 + amount ns qs n)))
      held := upd p.held id (fun n => upd (p.held id n) o (p.held id n o + amount ns qs n)) }
  | .transfer old id ns qs new =>
    { p with held := upd p.held id (fun n =>
        upd (upd (p.held id n) old (p.held id n old - amount ns qs n)) new (p.held id n new + amount ns qs n)) }
  | .burn id ns qs o =>
    { p with
      toks := upd p.toks id (fun n => (p.toks id n).map (fun t => (t.1, t.2 - amount ns qs n)))
      held := upd p.held id (fun n => upd (p.held id n) o (p.held id n o - amount ns qs n)) }
  | .ownerSet id o => { p with colls := upd p.colls id ((p.colls id).map (fun k => (o, k.2))) }
  | .maxIssuance id n m =>
    { p with toks := upd p.toks id (upd (p.toks id) n ((p.toks id n).map (fun t => (some m, t.2)))) }
  | .royalties id r => { p with colls := upd p.colls id ((p.colls id).map (fun k => (k.1, some r))) }
  | .toggle id n b => { p with pub := upd p.pub id (upd (p.pub id) n { p.pub id n with enabled := b }) }
  | .price id n x => { p with pub := upd p.pub id (upd (p.pub id) n { p.pub id n with price := x }) }
  | .flags id f => { p with flags := upd p.flags id f }

/-- The picture the storage gives. -/
def picture (s : St) : Picture where
  colls := fun id => (s.coll id).map (fun k => (k.owner, k.royalties))
  toks := fun id n => (s.tok id n).map (fun t => (t.max, t.iss))
  held := fun id n a => ((s.tok id n).map (fun t => freeOf t.owned a + resOf t.owned a)).getD 0
  flags := s.flags
  pub := s.pubMint

/-! ## Each call -/

theorem Picture.ext' {p q : Picture} (h1 : p.colls = q.colls) (h2 : p.toks = q.toks) (h3 : p.held = q.held)
    (h4 : p.flags = q.flags) (h5 : p.pub = q.pub) : p = q := by
  cases p; cases q; cases h1; cases h2; cases h3; cases h4; cases h5; rfl

theorem held_eq (s : St) (id n : Nat) (a : Acct) : (picture s).held id n a = free s id n a + res s id n a := by
  show ((s.tok id n).map (fun t => freeOf t.owned a + resOf t.owned a)).getD 0 = _
  unfold free res
  cases s.tok id n <;> rfl

theorem amount_unzip (xs : List (Nat × Nat)) (n : Nat) : amount (unzip xs).1 (unzip xs).2 n = qty xs n := by
  unfold amount unzip qty
  have : (xs.map Prod.fst).zip (xs.map Prod.snd) = xs := by
    induction xs with
    | nil => rfl
    | cons x xs ih => simp only [List.map_cons, List.zip_cons_cons, ih]
  rw [this]

/-- What the picture says of tokens, from issuance, limit and existence. -/
theorem toks_eq (s : St) (id n : Nat) :
    (picture s).toks id n = if (s.tok id n).isSome = true then some (maxIss s id n, iss s id n) else none := by
  show (s.tok id n).map (fun t => (t.max, t.iss)) = _
  unfold maxIss iss
  cases s.tok id n <;> rfl

/-- The picture after balances have moved within a collection. -/
theorem moves_right {s s' : St} {id : Nat} {m p : Nat → Acct → Nat} {i j : Nat → Nat} (h : Moves s s' id m p i j)
    (hle : ∀ n a, m n a ≤ free s id n a) :
    picture s' = { picture s with
      toks := upd (picture s).toks id (fun n => ((picture s).toks id n).map (fun t => (t.1, t.2 + j n - i n)))
      held := upd (picture s).held id (fun n a => (picture s).held id n a - m n a + p n a) } := by
  refine Picture.ext' ?_ ?_ ?_ h.flags h.pubMint
  · show (fun id => (s'.coll id).map _) = fun id => (s.coll id).map _
    rw [h.coll]
  · funext x n
    show (s'.tok x n).map _ = upd (picture s).toks id _ x n
    by_cases e : x = id
    · subst e
      rw [upd_same]
      have h1 := toks_eq s' x n
      have h2 := toks_eq s x n
      rw [h.exist n, h.max n] at h1
      refine (h1.trans ?_)
      show _ = ((picture s).toks x n).map _
      rw [h2]
      have h3 := h.iss n
      split
      · show some _ = some _
        rw [show iss s' x n = iss s x n + j n - i n by omega]
      · rfl
    · rw [upd_ne _ _ e, h.other x e]
      rfl
  · funext x n a
    show (picture s').held x n a = upd (picture s).held id _ x n a
    by_cases e : x = id
    · subst e
      rw [upd_same, held_eq, held_eq]
      have h1 := h.free n a
      have h2 := h.res n a
      have h3 := hle n a
      omega
    · rw [upd_ne _ _ e, held_eq, held_eq]
      unfold free res
      rw [h.other x e]

theorem mint_right {c : Cfg} {s s' : St} {who : Acct} {id : Nat} {xs : List (Nat × Nat)} {owner : Option Acct} (h : SI c s)
    (hs : mint c s who id xs owner = .ok s') :
    picture s' = follow (picture s) (.mint id (unzip xs).1 (unzip xs).2 (owner.getD who)) := by
  obtain ⟨_, _, _, m⟩ := mint_ok h hs
  rw [moves_right m (fun _ _ => Nat.zero_le _)]
  refine Picture.ext' rfl ?_ ?_ rfl rfl
  · simp only [follow, amount_unzip, Nat.sub_zero]
  · simp only [follow, amount_unzip, Nat.sub_zero]
    congr 1
    funext n a
    by_cases e : a = owner.getD who
    · subst e; rw [upd_same, if_pos rfl]
    · rw [upd_ne _ _ e, if_neg e, Nat.add_zero]

theorem transfer_right {c : Cfg} {s s' : St} {who new : Acct} {id : Nat} {xs : List (Nat × Nat)} (h : SI c s)
    (hs : transfer c s who id xs new = .ok s') :
    picture s' = follow (picture s) (.transfer who id (unzip xs).1 (unzip xs).2 new) := by
  obtain ⟨_, _, _, _, hne, m⟩ := transfer_ok h hs
  have hle : ∀ n a, (if a = who then qty xs n else 0) ≤ free s id n a := by
    intro n a
    have h1 := m.free n a
    by_cases e : a = who
    · subst e
      rw [if_pos rfl, if_neg hne] at h1
      rw [if_pos rfl]
      omega
    · rw [if_neg e]; omega
  rw [moves_right m hle]
  refine Picture.ext' rfl ?_ ?_ rfl rfl
  · simp only [follow, Nat.add_zero, Nat.sub_zero]
    funext j n
    by_cases e : j = id
    · subst e
      rw [upd_same]
      cases (picture s).toks j n <;> rfl
    · rw [upd_ne _ _ e]
  · simp only [follow, amount_unzip]
    congr 1
    funext n a
    by_cases e : a = new
    · subst e
      rw [upd_same, if_neg (fun h => hne h.symm), if_pos rfl, Nat.sub_zero]
    · rw [upd_ne _ _ e, if_neg e, Nat.add_zero]
      by_cases e2 : a = who
      · subst e2; rw [upd_same, if_pos rfl]
      · rw [upd_ne _ _ e2, if_neg e2, Nat.sub_zero]

theorem burn_right {c : Cfg} {s s' : St} {who : Acct} {id : Nat} {xs : List (Nat × Nat)} (h : SI c s)
    (hs : burn c s who id xs = .ok s') : picture s' = follow (picture s) (.burn id (unzip xs).1 (unzip xs).2 who) := by
  obtain ⟨_, _, _, _, m⟩ := burn_ok h hs
  have hle : ∀ n a, (if a = who then qty xs n else 0) ≤ free s id n a := by
    intro n a
    have h1 := m.free n a
    omega
  rw [moves_right m hle]
  refine Picture.ext' rfl ?_ ?_ rfl rfl
  · simp only [follow, amount_unzip, Nat.add_zero]
  · simp only [follow, amount_unzip, Nat.add_zero]
    congr 1
    funext n a
    by_cases e : a = who
    · subst e; rw [upd_same, if_pos rfl]
    · rw [upd_ne _ _ e, if_neg e, Nat.sub_zero]

/-- One token record is rewritten: what the reader needs of it stays. -/
theorem picture_setTok {s : St} {id n : Nat} {t t' : Tok} (ht : s.tok id n = some t) (hm : t'.max = t.max) (hi : t'.iss = t.iss)
    (ho : ∀ a, freeOf t'.owned a + resOf t'.owned a = freeOf t.owned a + resOf t.owned a) :
    picture (setTok s id n t') = picture s := by
  refine Picture.ext' rfl ?_ ?_ rfl rfl
  · funext j x
    show ((setTok s id n t').tok j x).map _ = (s.tok j x).map _
    by_cases e : j = id
    · subst e
      by_cases e2 : x = n
      · subst e2
        rw [tok_set_same, ht]
        show some (t'.max, t'.iss) = some (t.max, t.iss)
        rw [hm, hi]
      · rw [tok_set_ne _ _ _ _ e2]
    · rw [tok_set_other _ _ _ _ e]
  · funext j x a
    show (((setTok s id n t').tok j x).map _).getD 0 = ((s.tok j x).map _).getD 0
    by_cases e : j = id
    · subst e
      by_cases e2 : x = n
      · subst e2
        rw [tok_set_same, ht]
        exact ho a
      · rw [tok_set_ne _ _ _ _ e2]
    · rw [tok_set_other _ _ _ _ e]

/-- The record of a collection is rewritten. -/
theorem picture_setColl {s s' : St} {id : Nat} {k' : Coll} (hc : s'.coll = upd s.coll id (some k')) (ht : s'.tok = s.tok)
    (hf : s'.flags = s.flags) (hp : s'.pubMint = s.pubMint) :
    picture s' = { picture s with colls := upd (picture s).colls id (some (k'.owner, k'.royalties)) } := by
  refine Picture.ext' ?_ ?_ ?_ hf hp
  · funext j
    show (s'.coll j).map _ = upd (picture s).colls id _ j
    rw [hc]
    by_cases e : j = id
    · subst e; rw [upd_same, upd_same]; rfl
    · rw [upd_ne _ _ e, upd_ne _ _ e]; rfl
  · show (fun id n => (s'.tok id n).map _) = fun id n => (s.tok id n).map _
    rw [ht]
  · show (fun id n a => ((s'.tok id n).map _).getD 0) = fun id n a => ((s.tok id n).map _).getD 0
    rw [ht]

theorem firstOwned_sum (owner : Acct) (i : Nat) (a : Acct) :
    freeOf (firstOwned owner i) a + resOf (firstOwned owner i) a = if a = owner then i else 0 := by
  unfold firstOwned
  by_cases h : 0 < i
  · rw [if_pos h]
    unfold freeOf resOf
    rw [lookup_cons]
    by_cases e : owner = a
    · subst e
      simp
    · simp [e, Ne.symm e, lookup_nil]
  · rw [if_neg h]
    have : i = 0 := by omega
    subst this
    unfold freeOf resOf
    simp [lookup_nil]

theorem createToken_right {s s' : St} {who : Acct} {id i : Nat} {m : Option Nat} {o : Option Acct} {x : Bool}
    (hs : createToken s who id i m o x = .ok s') :
    picture s' = (tokenEv s who id i m o).toList.foldl follow (picture s) := by
  simp only [createToken, bind_ok, ensure_ok, okOr_ok, pure_ok] at hs
  obtain ⟨_, _, k, hk, _, _, _, _, _, _, _, _, rfl⟩ := hs
  unfold tokenEv
  rw [hk]
  refine Picture.ext' ?_ ?_ ?_ rfl rfl
  · funext j
    show (upd s.coll id _ j).map _ = (s.coll j).map _
    by_cases e : j = id
    · subst e; rw [upd_same, hk]; rfl
    · rw [upd_ne _ _ e]
  · funext j n
    show ((setTok s id k.next _).tok j n).map _ = upd (picture s).toks id _ j n
    by_cases e : j = id
    · subst e
      rw [upd_same]
      by_cases e2 : n = k.next
      · subst e2; rw [tok_set_same, upd_same]; rfl
      · rw [tok_set_ne _ _ _ _ e2, upd_ne _ _ e2]; rfl
    · rw [tok_set_other _ _ _ _ e, upd_ne _ _ e]; rfl
  · funext j n a
    show (((setTok s id k.next _).tok j n).map _).getD 0 = upd (picture s).held id _ j n a
    by_cases e : j = id
    · subst e
      rw [upd_same]
      by_cases e2 : n = k.next
      · subst e2; rw [tok_set_same, upd_same]; exact firstOwned_sum _ _ _
      · rw [tok_set_ne _ _ _ _ e2, upd_ne _ _ e2]; rfl
    · rw [tok_set_other _ _ _ _ e, upd_ne _ _ e]; rfl

theorem colls_some {s : St} {id : Nat} {k : Coll} (hk : s.coll id = some k) :
    (picture s).colls id = some (k.owner, k.royalties) := by
  show (s.coll id).map _ = _
  rw [hk]; rfl

/-- The event of an operation makes the picture right. -/
theorem act_right {c : Cfg} {s s' : St} {op : Op} (h : SI c s) (hr : (Call.act op).real = true)
    (hs : step c s op = .ok s') : picture s' = (opEv c s op).toList.foldl follow (picture s) := by
  cases op with
  | createColl o r =>
    simp only [step, createColl, bind_ok, ensure_ok, okOr_ok, pure_ok] at hs
    obtain ⟨id, hid, _, _, _, _, rfl⟩ := hs
    show _ = (createEv c s o r).toList.foldl follow (picture s)
    unfold createEv
    rw [hid]
    exact picture_setColl (k' := ⟨o, r, 0⟩) rfl rfl rfl rfl
  | takeUuid =>
    simp only [step, bind_ok, okOr_ok, pure_ok] at hs
    obtain ⟨_, _, rfl⟩ := hs
    rfl
  | createToken w id i m o e => exact createToken_right hs
  | mint w id xs o => exact mint_right h hs
  | transfer w id xs n => exact transfer_right h hs
  | burn w id xs => exact burn_right h hs
  | setOwner w id n =>
    simp only [step, setOwner, bind_ok, ensure_ok, okOr_ok, pure_ok] at hs
    obtain ⟨k, hk, _, _, rfl⟩ := hs
    refine (picture_setColl (s := s) (s' := { s with coll := upd s.coll id (some { k with owner := n }) }) (id := id)
      (k' := { k with owner := n }) rfl rfl rfl rfl).trans ?_
    show _ = follow (picture s) (.ownerSet id n)
    simp only [follow, colls_some hk, Option.map_some]
  | setMax w id n m =>
    simp only [step, setMax, bind_ok, ensure_ok, okOr_ok, pure_ok] at hs
    obtain ⟨_, _, k, hk, _, _, t, ht, _, _, _, _, rfl⟩ := hs
    refine Picture.ext' rfl ?_ ?_ rfl rfl
    · funext j x
      show ((setTok s id n { t with max := some m }).tok j x).map _ = upd (picture s).toks id _ j x
      by_cases e : j = id
      · subst e
        rw [upd_same]
        by_cases e2 : x = n
        · subst e2
          rw [tok_set_same, upd_same]
          show _ = Option.map _ ((s.tok j x).map _)
          rw [ht]; rfl
        · rw [tok_set_ne _ _ _ _ e2, upd_ne _ _ e2]; rfl
      · rw [tok_set_other _ _ _ _ e, upd_ne _ _ e]; rfl
    · funext j x a
      show (((setTok s id n { t with max := some m }).tok j x).map _).getD 0 = ((s.tok j x).map _).getD 0
      by_cases e : j = id
      · subst e
        by_cases e2 : x = n
        · subst e2
          rw [tok_set_same, ht]; rfl
        · rw [tok_set_ne _ _ _ _ e2]
      · rw [tok_set_other _ _ _ _ e]
  | setRoyalties w id r =>
    simp only [step, setRoyalties, bind_ok, ensure_ok, okOr_ok, pure_ok] at hs
    obtain ⟨k, hk, _, _, _, _, rfl⟩ := hs
    refine (picture_setColl (s := s) (s' := { s with coll := upd s.coll id (some { k with royalties := some r }) }) (id := id)
      (k' := { k with royalties := some r }) rfl rfl rfl rfl).trans ?_
    show _ = follow (picture s) (.royalties id r)
    simp only [follow, colls_some hk, Option.map_some]
  | setPubMint w id n p => cases hr
  | setFlags w id f =>
    simp only [step, setFlags, bind_ok, ensure_ok, okOr_ok, pure_ok] at hs
    obtain ⟨k, hk, _, _, rfl⟩ := hs
    rfl
  | reserve id n a w =>
    simp only [step, reserve, bind_ok, okOr_ok, pure_ok] at hs
    obtain ⟨t, ht, o, ho, rfl⟩ := hs
    refine picture_setTok ht rfl rfl fun b => ?_
    obtain ⟨_, h1, h2, _⟩ := reserve_ok ho
    have h1 := h1 b
    have h2 := h2 b
    show freeOf o b + resOf o b = _
    omega
  | unreserve id n a w =>
    simp only [step, unreserve, bind_ok, okOr_ok, pure_ok] at hs
    obtain ⟨t, ht, o, ho, rfl⟩ := hs
    refine picture_setTok ht rfl rfl fun b => ?_
    obtain ⟨_, h1, h2, _⟩ := unreserve_ok ho
    have h1 := h1 b
    have h2 := h2 b
    show freeOf o b + resOf o b = _
    omega
  | approveAll a b id ok =>
    simp only [step, approveAll, bind_ok, ensure_ok, pure_ok] at hs
    obtain ⟨_, _, rfl⟩ := hs
    rfl
  | safeTransfer a id xs f t =>
    simp only [step, safeTransfer, bind_ok, ensure_ok] at hs
    obtain ⟨_, _, hs⟩ := hs
    exact transfer_right h hs
  | safeBurn a id xs f =>
    simp only [step, safeBurn, bind_ok, ensure_ok] at hs
    obtain ⟨_, _, hs⟩ := hs
    exact burn_right h hs
  | ledger L => cases hs; rfl

theorem call_right {c : Cfg} {s s' : St} {k : Call} (h : SI c s) (hs : call c s k = .ok s') :
    SI c s' ∧ picture s' = (event c s k).toList.foldl follow (picture s) := by
  simp only [call, bind_ok, ensure_ok] at hs
  obtain ⟨_, hr, hs⟩ := hs
  refine ⟨h.step hs, ?_⟩
  cases k with
  | act op => exact act_right h hr hs
  | toggle w id n b =>
    simp only [Call.op, step, setPubMint, bind_ok, ensure_ok, okOr_ok, pure_ok] at hs
    obtain ⟨k, hk, _, _, rfl⟩ := hs
    rfl
  | setFee w id n p =>
    simp only [Call.op, step, setPubMint, bind_ok, ensure_ok, okOr_ok, pure_ok] at hs
    obtain ⟨k, hk, _, _, rfl⟩ := hs
    rfl

/-! ## The theorem -/

/-- C235: somebody who knows all collections and tokens at one point and reads the events from there on knows at every later
point how much of each token everybody has (on sale or not), the supply and limit of each token, and owner, royalties, utility
flags and public minting rules. There is no exception: every way into the pallet is told. -/
theorem C235 {c : Cfg} {s t : St} {log : List Ev} (h0 : Reach c s) (h : Told c s t log) :
    log.foldl follow (picture s) = picture t := by
  have key : SI c t ∧ log.foldl follow (picture s) = picture t := by
    induction h with
    | refl => exact ⟨h0.si, rfl⟩
    | @step t u log k _ hc ih =>
      obtain ⟨h1, h2⟩ := call_right ih.1 hc
      exact ⟨h1, by rw [List.foldl_append, ih.2, h2]⟩
  exact key.2

/-- C235: no reader counts more than there is. What the events say accounts have of a token adds up to what they say is its
supply. -/
theorem C235_sum {c : Cfg} {s t : St} {log : List Ev} (h0 : Reach c s) (h : Told c s t log) {id n : Nat} {m : Option Nat} {x : Nat}
    (ht : (log.foldl follow (picture s)).toks id n = some (m, x)) :
    TotalIs ((log.foldl follow (picture s)).held id n) x := by
  rw [C235 h0 h] at ht ⊢
  have hsi : SI c t := by
    clear ht
    induction h with
    | refl => exact h0.si
    | step _ hc ih => exact (call_right ih hc).1
  change (t.tok id n).map (fun t => (t.max, t.iss)) = some (m, x) at ht
  cases hk : t.tok id n with
  | none => rw [hk] at ht; cases ht
  | some k =>
    rw [hk] at ht
    injection ht with ht
    injection ht with _ ht
    subst ht
    have := (hsi.tok id n k hk).sum
    have e : (picture t).held id n = fun a => freeOf k.owned a + resOf k.owned a := by
      funext a
      show ((t.tok id n).map _).getD 0 = _
      rw [hk]; rfl
    rw [e]
    exact this

/-! ## Example -/

def xc : Cfg := ⟨3, 10, 100⟩

/-- The chain before the first collection. -/
def xs : St where
  coll := fun _ => none
  tok := fun _ _ => none
  flags := fun _ => ⟨true, true, true⟩
  pubMint := fun _ _ => ⟨false, none⟩
  nextId := 0
  forAll := fun _ _ _ => false
  ledger := Ledger.empty

/-- Account 1 creates a collection and two tokens, the second for account 2; tokens are minted (one named twice), put on sale,
moved and burnt, and rules set. -/
def xcalls : List Call :=
  [.act (.createColl 1 none), .act (.createToken 1 100 10 none none true), .act (.createToken 1 100 5 (some 50) (some 2) true),
    .act (.mint 1 100 [(0, 3), (1, 4), (0, 2)] (some 3)), .act (.reserve 100 0 4 3), .act (.transfer 3 100 [(1, 4), (0, 1)] 2),
    .act (.burn 1 100 [(0, 6)]), .toggle 1 100 1 true, .act (.setMax 1 100 0 99), .act (.setOwner 1 100 6)]

/-- Non-vacuity: the events of that history, the picture they give, and the state. -/
example : (run xc xcalls xs).2 = [.create 100 1 none, .tokenCreate 100 0 10 none 1, .tokenCreate 100 1 5 (some 50) 2,
      .mint 100 [0, 1, 0] [3, 4, 2] 3, .transfer 3 100 [1, 0] [4, 1] 2, .burn 100 [0] [6] 1, .toggle 100 1 true,
      .maxIssuance 100 0 99, .ownerSet 100 6] ∧
    [1, 2, 3].map (((run xc xcalls xs).2.foldl follow (picture xs)).held 100 0) = [4, 1, 4] ∧
    [1, 2, 3].map (((run xc xcalls xs).2.foldl follow (picture xs)).held 100 1) = [0, 9, 0] ∧
    [1, 2, 3].map ((picture (run xc xcalls xs).1).held 100 0) = [4, 1, 4] ∧
    ((run xc xcalls xs).2.foldl follow (picture xs)).toks 100 0 = some (some 99, 9) ∧
    ((run xc xcalls xs).2.foldl follow (picture xs)).toks 100 1 = some (some 50, 9) ∧
    ((run xc xcalls xs).2.foldl follow (picture xs)).colls 100 = some (6, none) := by decide +kernel

theorem Told.append {c : Cfg} : ∀ (ks : List Call) {s t : St} {log : List Ev}, Told c s t log →
    Told c s (run c ks t).1 (log ++ (run c ks t).2)
  | [], s, t, log, h => by rw [show (run c [] t).2 = [] from rfl, List.append_nil]; exact h
  | k :: ks, s, t, log, h => by
    unfold run
    cases hc : call c t k with
    | error e => exact Told.append ks h
    | ok u =>
      have := Told.append ks (h.step hc)
      rw [List.append_assoc] at this
      exact this

/-- Its hypotheses are met by that history. -/
example : Reach xc xs ∧ Told xc xs (run xc xcalls xs).1 (run xc xcalls xs).2 :=
  ⟨.init ⟨fun _ => rfl, fun _ _ => rfl, rfl⟩, Told.append xcalls .refl⟩

end Verif.Sft
