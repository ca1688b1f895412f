import Verif.Market.Model
import Verif.Nft.Props
import Verif.Sft.Props

/-! # Effects of the marketplace's token calls -/

namespace Verif.Market

/-! ## NFTs -/

theorem nft_locks {c : Nft.Cfg} {s s' : Nft.St} {op : Nft.Op} (hs : Nft.step c s op = .ok s') (hg : NftOutside s op) :
    s'.locks = s.locks ∧ Nft.Bridged s op := by
  have tr : ∀ {id : Nat} {ns : List Nat} {a b : Acct}, Nft.doTransfer c s id ns a b = .ok s' → s'.locks = s.locks := by
    intro id ns a b h
    simp only [Nft.doTransfer, bind_ok, ensure_ok, okOr_ok, pure_ok] at h
    obtain ⟨_, _, _, _, _, _, _, _, _, _, _, _, rfl⟩ := h
    rfl
  have bu : ∀ {id n : Nat} {a : Acct}, Nft.doBurn s a id n = .ok s' → s'.locks = s.locks := by
    intro id n a h
    simp only [Nft.doBurn, bind_ok, ensure_ok, okOr_ok, pure_ok] at h
    obtain ⟨_, _, _, _, _, _, _, _, rfl⟩ := h
    rfl
  have mi : ∀ {t : Nft.St} {id : Nat} {k : Nft.Coll} {w : Acct} {ns : List Nat}, Nft.doMint c t id k w ns = .ok s' →
      s'.locks = t.locks := by
    intro t id k w ns h
    simp only [Nft.doMint, bind_ok, ensure_ok, pure_ok] at h
    obtain ⟨_, _, _, _, _, _, rfl⟩ := h
    rfl
  cases op with
  | setLock w id n l => exact hg.elim
  | removeLock id n => exact hg.elim
  | create o i m t r x =>
    refine ⟨?_, hg⟩
    simp only [Nft.step, Nft.doCreate, bind_ok, ensure_ok, pure_ok] at hs
    obtain ⟨_, _, _, _, _, _, _, _, rfl⟩ := hs
    rfl
  | createBridged o g x =>
    refine ⟨?_, hg⟩
    simp only [Nft.step, Nft.doCreate, bind_ok, ensure_ok, pure_ok] at hs
    obtain ⟨_, _, _, _, _, _, _, _, _, _, rfl⟩ := hs
    rfl
  | mint w id q t e =>
    refine ⟨?_, hg⟩
    simp only [Nft.step, Nft.mint, bind_ok, ensure_ok, okOr_ok, pure_ok] at hs
    obtain ⟨_, _, _, _, k, _, ns, _, L, _, s1, h1, _, _, rfl⟩ := hs
    exact mi (t := { s with ledger := L }) h1
  | bridgedMint id w ns =>
    refine ⟨?_, hg⟩
    simp only [Nft.step, Nft.bridgedMint] at hs
    split at hs
    · cases hs; rfl
    · split at hs
      · cases hs; rfl
      · split at hs
        · cases hs; rfl
        · exact mi hs
  | transfer w id ns n => exact ⟨tr hs, hg⟩
  | burn w id n => exact ⟨bu hs, hg⟩
  | setOwner w id n =>
    refine ⟨?_, hg⟩
    simp only [Nft.step, Nft.setOwner, bind_ok, ensure_ok, okOr_ok, pure_ok] at hs
    obtain ⟨_, _, _, _, rfl⟩ := hs
    rfl
  | claimUnowned id n =>
    refine ⟨?_, hg⟩
    simp only [Nft.step, Nft.claimUnowned, bind_ok, ensure_ok, okOr_ok, pure_ok] at hs
    obtain ⟨_, _, _, _, rfl⟩ := hs
    rfl
  | setMaxIssuance w id m =>
    refine ⟨?_, hg⟩
    simp only [Nft.step, Nft.setMaxIssuance, bind_ok, ensure_ok, okOr_ok, pure_ok] at hs
    obtain ⟨_, _, _, _, _, _, _, _, _, _, rfl⟩ := hs
    rfl
  | setPubMint w id p =>
    refine ⟨?_, hg⟩
    simp only [Nft.step, Nft.setPubMint, bind_ok, ensure_ok, okOr_ok, pure_ok] at hs
    obtain ⟨_, _, _, _, rfl⟩ := hs
    rfl
  | setRoyalties w id r =>
    refine ⟨?_, hg⟩
    simp only [Nft.step, Nft.setRoyalties, bind_ok, ensure_ok, okOr_ok, pure_ok] at hs
    obtain ⟨_, _, _, _, _, _, rfl⟩ := hs
    rfl
  | setFlags w id f =>
    refine ⟨?_, hg⟩
    simp only [Nft.step, Nft.setFlags, bind_ok, ensure_ok, okOr_ok, pure_ok] at hs
    obtain ⟨_, _, _, _, rfl⟩ := hs
    rfl
  | enableXls20 w id =>
    refine ⟨?_, hg⟩
    simp only [Nft.step, Nft.enableXls20, bind_ok, ensure_ok, okOr_ok, pure_ok] at hs
    obtain ⟨_, _, _, _, _, _, rfl⟩ := hs
    rfl
  | takeUuid =>
    refine ⟨?_, hg⟩
    simp only [Nft.step, Nft.takeUuid, bind_ok, ensure_ok, pure_ok] at hs
    obtain ⟨_, _, _, _, rfl⟩ := hs
    rfl
  | approve a b id n =>
    refine ⟨?_, hg⟩
    simp only [Nft.step, Nft.approve, bind_ok, ensure_ok, okOr_ok, pure_ok] at hs
    obtain ⟨_, _, _, _, _, _, rfl⟩ := hs
    rfl
  | removeApproval w id n =>
    refine ⟨?_, hg⟩
    simp only [Nft.step, Nft.removeApproval, bind_ok, ensure_ok, pure_ok] at hs
    obtain ⟨_, _, _, _, rfl⟩ := hs
    rfl
  | approveAll a b id ok =>
    refine ⟨?_, hg⟩
    simp only [Nft.step, Nft.approveAll, bind_ok, ensure_ok, pure_ok] at hs
    obtain ⟨_, _, rfl⟩ := hs
    rfl
  | transferFrom a id n f t =>
    simp only [Nft.step, Nft.transferFrom, bind_ok, ensure_ok] at hs
    obtain ⟨_, _, hs⟩ := hs
    exact ⟨tr hs, hg⟩
  | burnPrecompile a id n =>
    simp only [Nft.step, Nft.burnPrecompile, bind_ok, ensure_ok, okOr_ok] at hs
    obtain ⟨_, _, o, _, hs⟩ := hs
    exact ⟨bu hs, hg⟩
  | ledger L => cases hs; exact ⟨rfl, hg⟩

theorem lock_apply (f : Nat → Nat → Option Nat) (id n : Nat) (v : Option Nat) (j m : Nat) :
    upd f id (upd (f id) n v) j m = if j = id ∧ m = n then v else f j m := by
  by_cases hj : j = id
  · subst hj
    rw [upd_same, upd_apply]
    by_cases hm : m = n
    · simp [hm]
    · simp [hm]
  · rw [upd_ne _ _ hj, if_neg (fun h => hj h.1)]

theorem unlockNft_locks (id : Nat) : ∀ (ns : List Nat) (s : Nft.St) (j m : Nat),
    (unlockNft id ns s).locks j m = if j = id ∧ m ∈ ns then none else s.locks j m
  | [], s, j, m => by simp [unlockNft]
  | n :: ns, s, j, m => by
    change (unlockNft id ns (Nft.removeLock s id n)).locks j m = _
    rw [unlockNft_locks id ns]
    by_cases h : j = id ∧ m ∈ ns
    · rw [if_pos h, if_pos ⟨h.1, List.mem_cons_of_mem _ h.2⟩]
    · rw [if_neg h]
      change upd s.locks id (upd (s.locks id) n none) j m = _
      rw [lock_apply]
      by_cases h2 : j = id ∧ m = n
      · rw [if_pos h2, if_pos ⟨h2.1, h2.2 ▸ List.mem_cons_self⟩]
      · rw [if_neg h2, if_neg]
        rintro ⟨h3, h4⟩
        rcases List.mem_cons.mp h4 with h5 | h5
        · exact h2 ⟨h3, h5⟩
        · exact h ⟨h3, h5⟩

theorem unlockNft_coll (id : Nat) : ∀ (ns : List Nat) (s : Nft.St), (unlockNft id ns s).coll = s.coll ∧
    (unlockNft id ns s).flags = s.flags
  | [], _ => ⟨rfl, rfl⟩
  | n :: ns, s => unlockNft_coll id ns (Nft.removeLock s id n)

theorem unlockNft_reach {c : Nft.Cfg} (id : Nat) : ∀ (ns : List Nat) {s : Nft.St}, Nft.Reach c Nft.Bridged s →
    Nft.Reach c Nft.Bridged (unlockNft id ns s)
  | [], _, h => h
  | n :: ns, _, h => unlockNft_reach id ns (h.step (op := .removeLock id n) trivial rfl)

theorem lockNft_ok {c : Nft.Cfg} {who : Acct} {id i : Nat} : ∀ {ns : List Nat} {s s' : Nft.St}, lockNft who id i ns s = .ok s' →
    s'.coll = s.coll ∧ (∀ n ∈ ns, s.locks id n = none ∧ Nft.ownerOf s id n = some who) ∧
    (∀ j m, s'.locks j m = if j = id ∧ m ∈ ns then some i else s.locks j m) ∧ ns.Nodup ∧
    (Nft.Reach c Nft.Bridged s → Nft.Reach c Nft.Bridged s')
  | [], s, s', h => by
    cases h
    exact ⟨rfl, fun n hn => (List.not_mem_nil hn).elim, fun j m => by simp, List.nodup_nil, fun h => h⟩
  | n :: ns, s, s', h => by
    simp only [lockNft, bind_ok] at h
    obtain ⟨s1, h1, h2⟩ := h
    have hr : Nft.Reach c Nft.Bridged s → Nft.Reach c Nft.Bridged s1 := fun hr => hr.step (op := .setLock who id n i) trivial h1
    simp only [Nft.setLock, bind_ok, ensure_ok, pure_ok] at h1
    obtain ⟨_, hl, _, ho, e1⟩ := h1
    obtain ⟨c1, c2, c3, c4, c5⟩ := lockNft_ok (c := c) h2
    have l1 : ∀ j m, s1.locks j m = if j = id ∧ m = n then some i else s.locks j m := by
      intro j m; rw [← e1]; exact lock_apply _ _ _ _ _ _
    have hc : s1.coll = s.coll := by rw [← e1]
    have hnin : n ∉ ns := by
      intro hn
      have := (c2 n hn).1
      rw [l1, if_pos ⟨rfl, rfl⟩] at this
      cases this
    refine ⟨c1.trans hc, ?_, ?_, List.nodup_cons.mpr ⟨hnin, c4⟩, fun hx => c5 (hr hx)⟩
    · intro m hm
      rcases List.mem_cons.mp hm with rfl | hm
      · exact ⟨hl, ho⟩
      · obtain ⟨d1, d2⟩ := c2 m hm
        rw [l1] at d1
        rw [Nft.ownerOf_congr hc] at d2
        split at d1
        · cases d1
        · exact ⟨d1, d2⟩
    · intro j m
      rw [c3, l1]
      by_cases h3 : j = id ∧ m ∈ ns
      · rw [if_pos h3, if_pos ⟨h3.1, List.mem_cons_of_mem _ h3.2⟩]
      · rw [if_neg h3]
        by_cases h4 : j = id ∧ m = n
        · rw [if_pos h4, if_pos ⟨h4.1, h4.2 ▸ List.mem_cons_self⟩]
        · rw [if_neg h4, if_neg]
          rintro ⟨h5, h6⟩
          rcases List.mem_cons.mp h6 with h7 | h7
          · exact h4 ⟨h5, h7⟩
          · exact h3 ⟨h5, h7⟩

/-! ## SFTs -/

theorem res_set {s s' : Sft.St} {id n : Nat} {t t' : Sft.Tok} {f : Acct → Nat} (ht : s.tok id n = some t)
    (he : s'.tok = (Sft.setTok s id n t').tok) (hf : ∀ a, Sft.resOf t'.owned a = f a) (j m : Nat) (a : Acct) :
    Sft.res s' j m a = if j = id ∧ m = n then f a else Sft.res s j m a := by
  unfold Sft.res
  rw [he]
  by_cases hj : j = id
  · subst hj
    by_cases hm : m = n
    · subst hm
      rw [Sft.tok_set_same, if_pos ⟨rfl, rfl⟩]; exact hf a
    · rw [Sft.tok_set_ne _ _ _ _ hm, if_neg (fun h => hm h.2)]
  · rw [Sft.tok_set_other _ _ _ _ hj, if_neg (fun h => hj h.1)]

theorem free_set {s s' : Sft.St} {id n : Nat} {t t' : Sft.Tok} {f : Acct → Nat} (ht : s.tok id n = some t)
    (he : s'.tok = (Sft.setTok s id n t').tok) (hf : ∀ a, Sft.freeOf t'.owned a = f a) (j m : Nat) (a : Acct) :
    Sft.free s' j m a = if j = id ∧ m = n then f a else Sft.free s j m a := by
  unfold Sft.free
  rw [he]
  by_cases hj : j = id
  · subst hj
    by_cases hm : m = n
    · subst hm
      rw [Sft.tok_set_same, if_pos ⟨rfl, rfl⟩]; exact hf a
    · rw [Sft.tok_set_ne _ _ _ _ hm, if_neg (fun h => hm h.2)]
  · rw [Sft.tok_set_other _ _ _ _ hj, if_neg (fun h => hj h.1)]

theorem res_of {s : Sft.St} {id n : Nat} {t : Sft.Tok} (ht : s.tok id n = some t) (a : Acct) :
    Sft.res s id n a = Sft.resOf t.owned a := by unfold Sft.res; rw [ht]; rfl

theorem free_of {s : Sft.St} {id n : Nat} {t : Sft.Tok} (ht : s.tok id n = some t) (a : Acct) :
    Sft.free s id n a = Sft.freeOf t.owned a := by unfold Sft.free; rw [ht]; rfl

theorem reserve_eff {s s' : Sft.St} {id n amt : Nat} {who : Acct} (hs : Sft.reserve s id n amt who = .ok s') (j m : Nat)
    (a : Acct) :
    Sft.res s' j m a = Sft.res s j m a + (if j = id ∧ m = n ∧ a = who then amt else 0) ∧
    Sft.free s' j m a + (if j = id ∧ m = n ∧ a = who then amt else 0) = Sft.free s j m a := by
  simp only [Sft.reserve, bind_ok, okOr_ok, pure_ok] at hs
  obtain ⟨t, ht, o, ho, rfl⟩ := hs
  obtain ⟨a1, a2, a3, a4⟩ := Sft.reserve_ok ho
  rw [res_set ht rfl (fun a => a3 a), free_set ht rfl (fun _ => rfl)]
  by_cases h : j = id ∧ m = n
  · rw [if_pos h, if_pos h]
    obtain ⟨rfl, rfl⟩ := h
    rw [res_of ht, free_of ht]
    have := a2 a
    by_cases ha : a = who
    · rw [if_pos ha] at this ⊢
      rw [if_pos ⟨rfl, rfl, ha⟩]
      exact ⟨rfl, this⟩
    · rw [if_neg ha] at this ⊢
      rw [if_neg (fun hx => ha hx.2.2)]
      exact ⟨rfl, this⟩
  · rw [if_neg h, if_neg h, if_neg (fun hx => h ⟨hx.1, hx.2.1⟩)]
    exact ⟨rfl, rfl⟩

theorem unreserve_eff {s s' : Sft.St} {id n amt : Nat} {who : Acct} (hs : Sft.unreserve s id n amt who = .ok s') (j m : Nat)
    (a : Acct) :
    Sft.res s' j m a + (if j = id ∧ m = n ∧ a = who then amt else 0) = Sft.res s j m a ∧
    Sft.free s' j m a = Sft.free s j m a + (if j = id ∧ m = n ∧ a = who then amt else 0) := by
  simp only [Sft.unreserve, bind_ok, okOr_ok, pure_ok] at hs
  obtain ⟨t, ht, o, ho, rfl⟩ := hs
  obtain ⟨a1, a2, a3, a4⟩ := Sft.unreserve_ok ho
  rw [free_set ht rfl (fun a => a2 a), res_set ht rfl (fun _ => rfl)]
  by_cases h : j = id ∧ m = n
  · rw [if_pos h, if_pos h]
    obtain ⟨rfl, rfl⟩ := h
    rw [res_of ht, free_of ht]
    have := a3 a
    by_cases ha : a = who
    · rw [if_pos ha] at this ⊢
      rw [if_pos ⟨rfl, rfl, ha⟩]
      exact ⟨this, rfl⟩
    · rw [if_neg ha] at this ⊢
      rw [if_neg (fun hx => ha hx.2.2)]
      exact ⟨this, rfl⟩
  · rw [if_neg h, if_neg h, if_neg (fun hx => h ⟨hx.1, hx.2.1⟩)]
    exact ⟨rfl, rfl⟩

theorem modFirst_find {who : Acct} {f : Sft.Bal → Except Err Sft.Bal} {b b' : Sft.Bal} (hf : f b = .ok b') :
    ∀ {o : List (Acct × Sft.Bal)}, Sft.lookup o who = some b → ∃ o', Sft.modFirst who f o = .ok o'
  | [], h => by cases h
  | e :: o, h => by
    rw [Sft.lookup_cons] at h
    unfold Sft.modFirst
    by_cases he : e.1 = who
    · rw [if_pos he] at h ⊢
      cases h
      exact ⟨(e.1, b') :: o, by rw [hf]; rfl⟩
    · rw [if_neg he] at h ⊢
      obtain ⟨o', ho⟩ := modFirst_find hf h
      exact ⟨e :: o', by rw [ho]; rfl⟩

theorem unreserve_succeeds {c : Sft.Cfg} {s : Sft.St} (hi : Sft.SI c s) {id n amt : Nat} {who : Acct} (h0 : 0 < amt)
    (hle : amt ≤ Sft.res s id n who) : ∃ s', Sft.unreserve s id n amt who = .ok s' := by
  cases ht : s.tok id n with
  | none => unfold Sft.res at hle; rw [ht] at hle; simp at hle; omega
  | some t =>
    rw [res_of ht] at hle
    have hti := (hi.tok _ _ _ ht).lt who
    cases hb : Sft.lookup t.owned who with
    | none => rw [(Sft.of_lookup_none hb).2] at hle; omega
    | some b =>
      obtain ⟨e1, e2⟩ := Sft.of_lookup hb
      rw [e1, e2] at hti
      rw [e2] at hle
      have hf : Sft.removeReserve amt b = .ok ⟨b.free + amt, b.res - amt⟩ := by
        unfold Sft.removeReserve Sft.addFree
        rw [ensure_pos hle]
        change (ensure (b.free + amt < U128) _ >>= _) = _
        rw [ensure_pos (by omega)]
        rfl
      obtain ⟨o', ho⟩ := modFirst_find hf hb
      refine ⟨Sft.setTok s id n { t with owned := o' }, ?_⟩
      unfold Sft.unreserve
      rw [ht]
      change (Sft.modFirst who (Sft.removeReserve amt) t.owned >>= _) = _
      rw [ho]
      rfl

theorem reserveAll_ok {c : Sft.Cfg} {who : Acct} {id : Nat} : ∀ {xs : List (Nat × Nat)} {s s' : Sft.St},
    reserveAll who id xs s = .ok s' →
    (Sft.SI c s → Sft.SI c s') ∧
    (∀ j m a, Sft.res s' j m a = Sft.res s j m a + (if j = id ∧ a = who then Sft.qty xs m else 0)) ∧
    (∀ j m a, Sft.free s' j m a + (if j = id ∧ a = who then Sft.qty xs m else 0) = Sft.free s j m a)
  | [], s, s', h => by
    cases h
    refine ⟨fun h => h, fun j m a => ?_, fun j m a => ?_⟩ <;> rw [Sft.qty_nil] <;> split <;> rfl
  | x :: xs, s, s', h => by
    simp only [reserveAll, bind_ok] at h
    obtain ⟨s1, h1, h2⟩ := h
    obtain ⟨i, e1, e2⟩ := reserveAll_ok (c := c) h2
    refine ⟨fun hi => i (hi.step (op := .reserve id x.1 x.2 who) h1), fun j m a => ?_, fun j m a => ?_⟩
    · have := e1 j m a
      have := (reserve_eff h1 j m a).1
      rw [Sft.qty_cons]
      split_ifs at * <;> simp_all <;> omega
    · have := e2 j m a
      have := (reserve_eff h1 j m a).2
      rw [Sft.qty_cons]
      split_ifs at * <;> simp_all <;> omega

theorem unreserveAll_ok {c : Sft.Cfg} {who : Acct} {id : Nat} : ∀ {xs : List (Nat × Nat)} {s s' : Sft.St},
    unreserveAll who id xs s = .ok s' →
    (Sft.SI c s → Sft.SI c s') ∧
    (∀ j m a, Sft.res s' j m a + (if j = id ∧ a = who then Sft.qty xs m else 0) = Sft.res s j m a) ∧
    (∀ j m a, Sft.free s' j m a = Sft.free s j m a + (if j = id ∧ a = who then Sft.qty xs m else 0))
  | [], s, s', h => by
    cases h
    refine ⟨fun h => h, fun j m a => ?_, fun j m a => ?_⟩ <;> rw [Sft.qty_nil] <;> split <;> rfl
  | x :: xs, s, s', h => by
    simp only [unreserveAll, bind_ok] at h
    obtain ⟨s1, h1, h2⟩ := h
    obtain ⟨i, e1, e2⟩ := unreserveAll_ok (c := c) h2
    refine ⟨fun hi => i (hi.step (op := .unreserve id x.1 x.2 who) h1), fun j m a => ?_, fun j m a => ?_⟩
    · have := e1 j m a
      have := (unreserve_eff h1 j m a).1
      rw [Sft.qty_cons]
      split_ifs at * <;> simp_all <;> omega
    · have := e2 j m a
      have := (unreserve_eff h1 j m a).2
      rw [Sft.qty_cons]
      split_ifs at * <;> simp_all <;> omega

theorem unreserveAll_succeeds {c : Sft.Cfg} {who : Acct} {id : Nat} : ∀ {xs : List (Nat × Nat)} {s : Sft.St}, Sft.SI c s →
    (∀ x ∈ xs, x.2 ≠ 0) → (∀ m, Sft.qty xs m ≤ Sft.res s id m who) → ∃ s', unreserveAll who id xs s = .ok s'
  | [], s, _, _, _ => ⟨s, rfl⟩
  | x :: xs, s, hi, h0, hle => by
    have hq := hle x.1
    rw [Sft.qty_cons, if_pos rfl] at hq
    have hx := h0 x List.mem_cons_self
    obtain ⟨s1, h1⟩ := unreserve_succeeds hi (id := id) (n := x.1) (amt := x.2) (who := who) (by omega) (by omega)
    have hi1 := hi.step (op := .unreserve id x.1 x.2 who) h1
    obtain ⟨s', h2⟩ := unreserveAll_succeeds hi1 (fun y hy => h0 y (List.mem_cons_of_mem _ hy)) (id := id) (who := who)
      (xs := xs) (fun m => by
        have e := (unreserve_eff h1 id m who).1
        have e2 := hle m
        rw [Sft.qty_cons] at e2
        split_ifs at * <;> simp_all <;> omega)
    exact ⟨s', by unfold unreserveAll; rw [h1]; exact h2⟩

theorem unreserveSoft_eq {who : Acct} {id : Nat} : ∀ {xs : List (Nat × Nat)} {s s' : Sft.St},
    unreserveAll who id xs s = .ok s' → unreserveSoft who id xs s = s'
  | [], s, s', h => by cases h; rfl
  | x :: xs, s, s', h => by
    simp only [unreserveAll, bind_ok] at h
    obtain ⟨s1, h1, h2⟩ := h
    unfold unreserveSoft
    rw [h1]
    exact unreserveSoft_eq h2

/-- Operations of others never change reserves. -/
theorem sft_res {c : Sft.Cfg} {s s' : Sft.St} {op : Sft.Op} (hi : Sft.SI c s) (hs : Sft.step c s op = .ok s')
    (hg : SftOutside op) (id n : Nat) (a : Acct) : Sft.res s' id n a = Sft.res s id n a := by
  have same : s'.tok = s.tok → Sft.res s' id n a = Sft.res s id n a := by
    intro h; unfold Sft.res; rw [h]
  have moves : ∀ {j : Nat} {m p : Nat → Acct → Nat} {x y : Nat → Nat}, Sft.Moves s s' j m p x y →
      Sft.res s' id n a = Sft.res s id n a := by
    intro j m p x y h
    by_cases hj : id = j
    · subst hj; exact h.res n a
    · unfold Sft.res; rw [h.other id hj]
  cases op with
  | createColl o r =>
    simp only [Sft.step, Sft.createColl, bind_ok, ensure_ok, okOr_ok, pure_ok] at hs
    obtain ⟨_, _, _, _, _, _, rfl⟩ := hs
    rfl
  | takeUuid =>
    simp only [Sft.step, bind_ok, okOr_ok, pure_ok] at hs
    obtain ⟨_, _, rfl⟩ := hs
    rfl
  | createToken w j i m o e =>
    simp only [Sft.step, Sft.createToken, bind_ok, ensure_ok, okOr_ok, pure_ok] at hs
    obtain ⟨_, _, k, hk, _, _, _, _, _, _, _, _, rfl⟩ := hs
    unfold Sft.res
    dsimp only
    by_cases hj : id = j
    · subst hj
      by_cases hn : n = k.next
      · subst hn
        have : s.tok id k.next = none := by
          cases hx : s.tok id k.next with
          | none => rfl
          | some t =>
            obtain ⟨k0, h0, h1⟩ := hi.below _ _ _ hx
            rw [hk] at h0; cases h0
            omega
        rw [this, Sft.tok_set_same]
        unfold Sft.firstOwned
        simp only [Option.map_some, Option.map_none, Option.getD_some, Option.getD_none]
        split
        · unfold Sft.resOf
          rw [Sft.lookup_cons]
          split
          · rfl
          · rfl
        · rfl
      · rw [Sft.tok_set_ne _ _ _ _ hn]
    · rw [Sft.tok_set_other _ _ _ _ hj]
  | mint w j xs o => exact moves (Sft.mint_ok hi hs).2.2.2
  | transfer w j xs x => exact moves (Sft.transfer_ok hi hs).2.2.2.2.2
  | burn w j xs => exact moves (Sft.burn_ok hi hs).2.2.2.2
  | setOwner w j k =>
    simp only [Sft.step, Sft.setOwner, bind_ok, ensure_ok, okOr_ok, pure_ok] at hs
    obtain ⟨_, _, _, _, rfl⟩ := hs
    rfl
  | setMax w j k m =>
    simp only [Sft.step, Sft.setMax, bind_ok, ensure_ok, okOr_ok, pure_ok] at hs
    obtain ⟨_, _, _, _, _, _, u, hu, _, _, _, _, rfl⟩ := hs
    rw [res_set hu rfl (fun _ => rfl)]
    split
    · rename_i hx; obtain ⟨rfl, rfl⟩ := hx; exact (res_of hu a).symm
    · rfl
  | setRoyalties w j r =>
    simp only [Sft.step, Sft.setRoyalties, bind_ok, ensure_ok, okOr_ok, pure_ok] at hs
    obtain ⟨_, _, _, _, _, _, rfl⟩ := hs
    rfl
  | setPubMint w j k p =>
    simp only [Sft.step, Sft.setPubMint, bind_ok, ensure_ok, okOr_ok, pure_ok] at hs
    obtain ⟨_, _, _, _, rfl⟩ := hs
    rfl
  | setFlags w j f =>
    simp only [Sft.step, Sft.setFlags, bind_ok, ensure_ok, okOr_ok, pure_ok] at hs
    obtain ⟨_, _, _, _, rfl⟩ := hs
    rfl
  | reserve j k x w => exact hg.elim
  | unreserve j k x w => exact hg.elim
  | approveAll x b j ok =>
    simp only [Sft.step, Sft.approveAll, bind_ok, ensure_ok, pure_ok] at hs
    obtain ⟨_, _, rfl⟩ := hs
    rfl
  | safeTransfer x j xs f y =>
    simp only [Sft.step, Sft.safeTransfer, bind_ok, ensure_ok] at hs
    obtain ⟨_, _, hs⟩ := hs
    exact moves (Sft.transfer_ok hi hs).2.2.2.2.2
  | safeBurn x j xs f =>
    simp only [Sft.step, Sft.safeBurn, bind_ok, ensure_ok] at hs
    obtain ⟨_, _, hs⟩ := hs
    exact moves (Sft.burn_ok hi hs).2.2.2.2
  | ledger L => cases hs; rfl

end Verif.Market
