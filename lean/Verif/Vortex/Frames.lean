import Verif.Vortex.Spec

/-!
# What each call does
-/

namespace Verif.Vortex

variable {c : Cfg}

theorem rootOrAdmin_ok {s : St} {o : Origin} {u : Unit} (h : rootOrAdmin s o = .ok u) :
    o = none ∨ ∃ w, o = some w ∧ s.admin = some w := by
  cases o with
  | none => exact .inl rfl
  | some w => simp only [rootOrAdmin, ensure_ok] at h; exact .inr ⟨w, rfl, h⟩

theorem setAdmin_ok {s s' : St} {o : Origin} {n : Acct} (h : setAdmin s o n = .ok s') :
    o = none ∧ s' = { s with admin := some n } := by
  simp only [setAdmin, bind_ok, ensure_ok, pure_ok] at h
  obtain ⟨_, h1, rfl⟩ := h; exact ⟨h1, rfl⟩

theorem create_ok {s s' : St} {o : Origin} (h : create s o = .ok s') :
    rootOrAdmin s o = .ok () ∧ s.next + 1 < U32 ∧ s' = { s with
      next := s.next + 1
      status := upd s.status s.next .enabled } := by
  simp only [create, bind_ok, ensure_ok, pure_ok] at h
  obtain ⟨_, h1, _, h2, rfl⟩ := h; exact ⟨h1, h2, rfl⟩

theorem disable_ok {s s' : St} {o : Origin} {id : Nat} (h : disable s o id = .ok s') :
    rootOrAdmin s o = .ok () ∧ s.status id ≠ .disabled ∧
      s' = { s with status := upd s.status id .disabled } := by
  simp only [disable, bind_ok, ensure_ok, pure_ok] at h
  obtain ⟨_, h1, _, h2, rfl⟩ := h; exact ⟨h1, h2, rfl⟩

theorem start_ok {s s' : St} {o : Origin} {id : Nat} (h : start c s o id = .ok s') :
    rootOrAdmin s o = .ok () ∧ s.status id = .triggered ∧
      ∃ L, s.ledger.mint c.vtx c.vault (s.total id) = .ok L ∧ s' = { s with
        ledger := L
        total := upd s.total id 0
        status := upd s.status id .paying
        events := s.events ++ [.started id (s.total id)] } := by
  simp only [start, bind_ok, ensure_ok, pure_ok] at h
  obtain ⟨_, h1, _, h2, L, h3, rfl⟩ := h; exact ⟨h1, h2, L, h3, rfl⟩

/-- The three outcomes of a payout call. -/
theorem pay_ok {s s' : St} {id b : Nat} (h : pay c s id b = .ok s') :
    b ≤ s.now ∧
    ((s.status id ≠ .paying ∧ s' = { s with unsignedAt := s.now + c.interval }) ∨
     (s.status id = .paying ∧ s.pivot id = some (payRun c s id).last ∧ s' = { s with
        ledger := (payRun c s id).ledger
        book := upd s.book id (payRun c s id).book
        events := (payRun c s id).events ++ [.done id]
        status := upd s.status id .done
        pivot := upd s.pivot id (some (payRun c s id).last)
        unsignedAt := s.now + c.interval }) ∨
     (s.status id = .paying ∧ s.pivot id ≠ some (payRun c s id).last ∧ s' = { s with
        ledger := (payRun c s id).ledger
        book := upd s.book id (payRun c s id).book
        events := (payRun c s id).events
        pivot := upd s.pivot id (some (payRun c s id).last)
        unsignedAt := s.now + c.interval })) := by
  simp only [pay, bind_ok, ensure_ok] at h
  obtain ⟨_, h1, h2⟩ := h
  refine ⟨h1, ?_⟩
  split at h2
  · rename_i hp
    split at h2
    · rename_i hl
      simp only [pure_ok] at h2
      exact .inr (.inl ⟨hp, hl, h2.symm⟩)
    · rename_i hl
      simp only [pure_ok] at h2
      exact .inr (.inr ⟨hp, hl, h2.symm⟩)
  · rename_i hp
    simp only [pure_ok] at h2
    exact .inl ⟨hp, h2.symm⟩

theorem setEras_ok {s s' : St} {o : Origin} {id a b : Nat} (h : setEras s o id a b = .ok s') :
    rootOrAdmin s o = .ok () ∧ s' = { s with eras := upd s.eras id (a, b) } := by
  simp only [setEras, bind_ok, ensure_ok, pure_ok] at h
  obtain ⟨_, h1, _, _, rfl⟩ := h; exact ⟨h1, rfl⟩

theorem setPrices_ok {s s' : St} {o : Origin} {ps : List (AssetId × Nat)} {id : Nat}
    (h : setPrices c s o ps id = .ok s') :
    rootOrAdmin s o = .ok () ∧ (∀ p ∈ ps, p.1 ≠ c.vtx) ∧ s' = { s with
      priced := upd s.priced id (ps.foldl addPrice (s.priced id, s.price id)).1
      price := upd s.price id (ps.foldl addPrice (s.priced id, s.price id)).2 } := by
  simp only [setPrices, bind_ok, ensure_ok, pure_ok] at h
  obtain ⟨_, h1, _, h2, rfl⟩ := h; exact ⟨h1, h2, rfl⟩

theorem register_ok {s s' : St} {o : Origin} {id : Nat} {rs : List (Acct × Nat)}
    (h : register c s o id rs = .ok s') :
    rootOrAdmin s o = .ok () ∧ s.status id = .enabled ∧ s' = { s with
      keys := upd s.keys id (rs.foldl (addReward c) (s.keys id, s.book id)).1
      book := upd s.book id (rs.foldl (addReward c) (s.keys id, s.book id)).2
      total := upd s.total id (satAdd (s.total id) (wrapSum rs)) } := by
  simp only [register, bind_ok, ensure_ok, pure_ok] at h
  obtain ⟨_, h1, _, h2, _, _, rfl⟩ := h; exact ⟨h1, h2, rfl⟩

theorem trigger_ok {s s' : St} {o : Origin} {id : Nat} (h : trigger c s o id = .ok s') :
    rootOrAdmin s o = .ok () ∧ s.status id = .enabled ∧
      ∃ L1 L2, sweep c (s.priced id) s.ledger = .ok L1 ∧
        safeTransfer L1 c.native c.rootVault c.vault (L1.bal c.native c.rootVault) = .ok L2 ∧ s' = { s with
          ledger := L2
          status := upd s.status id .triggered } := by
  simp only [trigger, bind_ok, ensure_ok, pure_ok] at h
  obtain ⟨_, h1, _, h2, L1, h3, L2, h4, rfl⟩ := h; exact ⟨h1, h2, L1, L2, h3, h4, rfl⟩

theorem redeem_ok {s s' : St} {who : Acct} {id v : Nat} (h : redeem c s who id v = .ok s') :
    0 < s.ledger.iss c.vtx ∧ 0 < v ∧ v ≤ s.ledger.bal c.vtx who ∧ s.status id = .done ∧
      ∃ L1 L2, payShares c who v (s.ledger.iss c.vtx) (s.priced id) s.ledger = .ok L1 ∧
        L1.burn c.vtx who v = .ok L2 ∧ s' = { s with ledger := L2 } := by
  simp only [redeem, bind_ok, ensure_ok, pure_ok] at h
  obtain ⟨_, h1, _, h2, _, h3, L1, h4, L2, h5, rfl⟩ := h; exact ⟨h1, h2.1, h2.2, h3, L1, L2, h4, h5, rfl⟩

/-! ### Transfers -/

theorem safeTransfer_ok {L L' : Ledger} {a : AssetId} {x y : Acct} {n : Nat}
    (h : safeTransfer L a x y n = .ok L') :
    n ≤ L.bal a x ∧ L'.iss = L.iss ∧ (∀ b, b ≠ a → L'.bal b = L.bal b) ∧
    (∀ z, L'.bal a z + (if z = x then n else 0) = L.bal a z + (if z = y then n else 0)) := by
  unfold safeTransfer at h
  split at h
  · rename_i hn
    cases h
    exact ⟨by omega, rfl, fun _ _ => rfl, fun z => by subst hn; simp⟩
  · exact Ledger.transfer_ok h

theorem safeTransfer_sound {L L' : Ledger} {a : AssetId} {x y : Acct} {n : Nat}
    (h : safeTransfer L a x y n = .ok L') (hs : L.Sound) : L'.Sound := by
  unfold safeTransfer at h
  split at h
  · cases h; exact hs
  · exact Ledger.transfer_sound h hs

/-- It fails only for lack of funds. -/
theorem safeTransfer_err {L : Ledger} {a : AssetId} {x y : Acct} {n : Nat} {e : Err}
    (h : safeTransfer L a x y n = .error e) : L.bal a x < n := by
  unfold safeTransfer at h
  split at h
  · cases h
  · unfold Ledger.transfer at h
    split at h
    · cases h
    · omega

theorem sweep_ok : ∀ {as : List AssetId} {L L' : Ledger}, sweep c as L = .ok L' →
    (L.Sound → L'.Sound) ∧ L'.iss = L.iss ∧ ∀ b, b ∉ as → L'.bal b = L.bal b
  | [], L, L', h => by cases h; exact ⟨id, rfl, fun _ _ => rfl⟩
  | a :: as, L, L', h => by
    simp only [sweep, bind_ok] at h
    obtain ⟨L1, h1, h2⟩ := h
    obtain ⟨i1, i2, i3⟩ := sweep_ok h2
    obtain ⟨_, j2, j3, _⟩ := safeTransfer_ok h1
    refine ⟨fun hs => i1 (safeTransfer_sound h1 hs), i2.trans j2, fun b hb => ?_⟩
    simp only [List.mem_cons, not_or] at hb
    rw [i3 b hb.2, j3 b hb.1]

theorem payShares_ok {who : Acct} {v tot : Nat} : ∀ {as : List AssetId} {L L' : Ledger},
    payShares c who v tot as L = .ok L' →
    (L.Sound → L'.Sound) ∧ L'.iss = L.iss ∧ ∀ b, b ∉ as → L'.bal b = L.bal b
  | [], L, L', h => by cases h; exact ⟨id, rfl, fun _ _ => rfl⟩
  | a :: as, L, L', h => by
    simp only [payShares, bind_ok] at h
    obtain ⟨L1, h1, h2⟩ := h
    obtain ⟨i1, i2, i3⟩ := payShares_ok h2
    obtain ⟨_, j2, j3, _⟩ := safeTransfer_ok h1
    refine ⟨fun hs => i1 (safeTransfer_sound h1 hs), i2.trans j2, fun b hb => ?_⟩
    simp only [List.mem_cons, not_or] at hb
    rw [i3 b hb.2, j3 b hb.1]

/-- Every listed asset moves exactly once. -/
theorem payShares_listed {who : Acct} {v tot : Nat} : ∀ {as : List AssetId} {L L' : Ledger},
    as.Nodup → payShares c who v tot as L = .ok L' → ∀ a ∈ as,
    ∀ y, L'.bal a y + (if y = c.vault then satMul v (L.bal a c.vault) / tot else 0) =
      L.bal a y + (if y = who then satMul v (L.bal a c.vault) / tot else 0)
  | [], _, _, _, _, _, ha, _ => by cases ha
  | b :: as, L, L', hn, h, a, ha, y => by
    simp only [payShares, bind_ok] at h
    obtain ⟨L1, h1, h2⟩ := h
    obtain ⟨_, _, i3⟩ := payShares_ok h2
    obtain ⟨_, _, j3, j4⟩ := safeTransfer_ok h1
    obtain ⟨hb, hn'⟩ := List.nodup_cons.1 hn
    by_cases hab : a = b
    · subst hab
      rw [i3 a hb]
      exact j4 y
    · have ha' : a ∈ as := by
        rcases List.mem_cons.1 ha with e | e
        · exact absurd e hab
        · exact e
      have := payShares_listed hn' h2 a ha' y
      rw [j3 a hab] at this
      exact this

/-! ### Prices -/

theorem addPrices_ok {v : AssetId} : ∀ (ps : List (AssetId × Nat)) (m : List AssetId × (AssetId → Nat)),
    (∀ p ∈ ps, p.1 ≠ v) → m.1.Nodup → v ∉ m.1 →
    (ps.foldl addPrice m).1.Nodup ∧ v ∉ (ps.foldl addPrice m).1
  | [], _, _, h1, h2 => ⟨h1, h2⟩
  | p :: ps, m, hp, h1, h2 => by
    refine addPrices_ok ps (addPrice m p) (fun q hq => hp q (List.mem_cons_of_mem _ hq)) ?_ ?_
    · unfold addPrice
      split
      · exact h1
      · rename_i hn
        simp only [List.nodup_append]
        refine ⟨h1, by simp, ?_⟩
        intro x hx y hy
        simp only [List.mem_singleton] at hy
        subst hy
        intro e; subst e; exact hn hx
    · have := hp p List.mem_cons_self
      unfold addPrice
      split
      · exact h2
      · simp only [List.mem_append, List.mem_singleton, not_or]
        exact ⟨h2, fun e => this e.symm⟩

/-! ### The order book -/

theorem mem_insertKey {rank : Acct → Nat} {w x : Acct} : ∀ {ks : List Acct},
    x ∈ insertKey rank w ks ↔ x = w ∨ x ∈ ks
  | [] => by simp [insertKey]
  | k :: ks => by
    unfold insertKey
    split
    · rename_i h; subst h; simp
    · split
      · simp
      · simp only [List.mem_cons, mem_insertKey (ks := ks)]
        constructor
        · rintro (h | h | h)
          · exact .inr (.inl h)
          · exact .inl h
          · exact .inr (.inr h)
        · rintro (h | h | h)
          · exact .inr (.inl h)
          · exact .inl h
          · exact .inr (.inr h)

/-- Keys in order. -/
def Sorted (c : Cfg) (ks : List Acct) : Prop := ks.Pairwise (fun x y => c.rank x < c.rank y)

theorem Sorted.nodup {ks : List Acct} (h : Sorted c ks) : ks.Nodup :=
  h.imp (fun hlt e => by subst e; exact absurd hlt (Nat.lt_irrefl _))

theorem insertKey_sorted {w : Acct} : ∀ {ks : List Acct}, Sorted c ks → Sorted c (insertKey c.rank w ks)
  | [], _ => by simp [insertKey, Sorted]
  | k :: ks, h => by
    obtain ⟨h1, h2⟩ := List.pairwise_cons.1 h
    unfold insertKey
    split
    · exact h
    · rename_i hne
      split
      · rename_i hlt
        refine List.pairwise_cons.2 ⟨?_, h⟩
        intro y hy
        rcases List.mem_cons.1 hy with rfl | hy
        · exact hlt
        · exact Nat.lt_trans hlt (h1 y hy)
      · rename_i hlt
        refine List.pairwise_cons.2 ⟨?_, insertKey_sorted h2⟩
        intro y hy
        rcases mem_insertKey.1 hy with rfl | hy
        · have : c.rank y ≠ c.rank k := fun e => hne (c.rank_inj _ _ e)
          omega
        · exact h1 y hy

theorem insertKey_mem {w : Acct} : ∀ {ks : List Acct}, Sorted c ks → w ∈ ks → insertKey c.rank w ks = ks
  | [], _, h => by cases h
  | k :: ks, hs, h => by
    obtain ⟨h1, h2⟩ := List.pairwise_cons.1 hs
    unfold insertKey
    split
    · rfl
    · rename_i hne
      rcases List.mem_cons.1 h with e | hm
      · exact absurd e hne
      · have := h1 w hm
        rw [if_neg (by omega), insertKey_mem h2 hm]

theorem insertKey_perm {rank : Acct → Nat} {w : Acct} : ∀ {ks : List Acct}, w ∉ ks →
    (insertKey rank w ks).Perm (w :: ks)
  | [], _ => by simp [insertKey]
  | k :: ks, h => by
    simp only [List.mem_cons, not_or] at h
    unfold insertKey
    rw [if_neg h.1]
    split
    · exact List.Perm.refl _
    · exact ((insertKey_perm h.2).cons k).trans (List.Perm.swap _ _ _)

/-- The rewards of the accounts of `ks`, before payment. -/
def unpaidOf (book : Acct → Nat × Bool) (ks : List Acct) : Nat :=
  (ks.map (fun w => if (book w).2 = true then 0 else (book w).1)).sum

theorem unpaidOf_nil {book : Acct → Nat × Bool} : unpaidOf book [] = 0 := rfl

theorem unpaidOf_cons {book : Acct → Nat × Bool} {k : Acct} {ks : List Acct} :
    unpaidOf book (k :: ks) = (if (book k).2 = true then 0 else (book k).1) + unpaidOf book ks := by
  simp [unpaidOf]

theorem unpaidOf_upd_notMem {book : Acct → Nat × Bool} {w : Acct} {e : Nat × Bool} : ∀ {ks : List Acct},
    w ∉ ks → unpaidOf (upd book w e) ks = unpaidOf book ks
  | [], _ => rfl
  | k :: ks, h => by
    simp only [List.mem_cons, not_or] at h
    rw [unpaidOf_cons, unpaidOf_cons, unpaidOf_upd_notMem h.2, upd_ne _ _ (Ne.symm h.1)]

/-- Replacing the entry of an account of the list. -/
theorem unpaidOf_upd_mem {book : Acct → Nat × Bool} {w : Acct} {e : Nat × Bool} : ∀ {ks : List Acct},
    ks.Nodup → w ∈ ks →
    unpaidOf (upd book w e) ks + (if (book w).2 = true then 0 else (book w).1) =
      unpaidOf book ks + (if e.2 = true then 0 else e.1)
  | [], _, h => by cases h
  | k :: ks, hn, h => by
    obtain ⟨h1, h2⟩ := List.nodup_cons.1 hn
    rw [unpaidOf_cons, unpaidOf_cons]
    by_cases hk : w = k
    · subst hk
      rw [unpaidOf_upd_notMem h1, upd_same]
      omega
    · have hm : w ∈ ks := by
        rcases List.mem_cons.1 h with e | e
        · exact absurd e hk
        · exact e
      have := unpaidOf_upd_mem (book := book) (e := e) h2 hm
      rw [upd_ne _ _ (Ne.symm hk)]
      omega

theorem unpaidOf_perm {book : Acct → Nat × Bool} {ks ks' : List Acct} (h : ks.Perm ks') :
    unpaidOf book ks = unpaidOf book ks' :=
  (h.map _).sum_eq

/-- Registering one reward. -/
theorem unpaidOf_addReward {m : List Acct × (Acct → Nat × Bool)} {r : Acct × Nat} (hs : Sorted c m.1) :
    unpaidOf (addReward c m r).2 (addReward c m r).1 ≤ unpaidOf m.2 m.1 + r.2 ∧
    (r.1 ∉ m.1 → unpaidOf (addReward c m r).2 (addReward c m r).1 = unpaidOf m.2 m.1 + r.2) := by
  unfold addReward
  dsimp only
  by_cases hm : r.1 ∈ m.1
  · refine ⟨?_, fun h => absurd hm h⟩
    rw [insertKey_mem hs hm]
    have := unpaidOf_upd_mem (book := m.2) (e := (r.2, false)) hs.nodup hm
    simp only [Bool.false_eq_true, if_false] at this
    omega
  · have e : unpaidOf (upd m.2 r.1 (r.2, false)) (insertKey c.rank r.1 m.1) = unpaidOf m.2 m.1 + r.2 := by
      rw [unpaidOf_perm (insertKey_perm hm), unpaidOf_cons, upd_same, unpaidOf_upd_notMem hm]
      simp only [Bool.false_eq_true, if_false]
      omega
    exact ⟨by omega, fun _ => e⟩

/-- Registering a list of rewards. -/
theorem addRewards_ok : ∀ (rs : List (Acct × Nat)) (m : List Acct × (Acct → Nat × Bool)), Sorted c m.1 →
    Sorted c (rs.foldl (addReward c) m).1 ∧
    (∀ w, w ∈ (rs.foldl (addReward c) m).1 ↔ w ∈ m.1 ∨ ∃ x, (w, x) ∈ rs) ∧
    (∀ w, (m.2 w).2 = false → ((rs.foldl (addReward c) m).2 w).2 = false) ∧
    (∀ w, (∀ x, (w, x) ∉ rs) → (rs.foldl (addReward c) m).2 w = m.2 w) ∧
    unpaidOf (rs.foldl (addReward c) m).2 (rs.foldl (addReward c) m).1 ≤
      unpaidOf m.2 m.1 + (rs.map Prod.snd).sum ∧
    ((rs.map Prod.fst).Nodup → (∀ r ∈ rs, r.1 ∉ m.1) →
      unpaidOf (rs.foldl (addReward c) m).2 (rs.foldl (addReward c) m).1 =
        unpaidOf m.2 m.1 + (rs.map Prod.snd).sum)
  | [], m, hs => by simp [hs]
  | r :: rs, m, hs => by
    have hs' : Sorted c (addReward c m r).1 := insertKey_sorted hs
    obtain ⟨i1, i2, i3, i4, i5, i6⟩ := addRewards_ok rs (addReward c m r) hs'
    obtain ⟨u1, u2⟩ := unpaidOf_addReward (r := r) hs
    simp only [List.foldl_cons, List.map_cons, List.sum_cons]
    refine ⟨i1, ?_, ?_, ?_, by omega, ?_⟩
    · intro w
      rw [i2 w]
      simp only [addReward, mem_insertKey, List.mem_cons]
      constructor
      · rintro ((h | h) | ⟨x, h⟩)
        · exact .inr ⟨r.2, .inl (by rw [h])⟩
        · exact .inl h
        · exact .inr ⟨x, .inr h⟩
      · rintro (h | ⟨x, h | h⟩)
        · exact .inl (.inr h)
        · exact .inl (.inl (by rw [← h]))
        · exact .inr ⟨x, h⟩
    · intro w hw
      apply i3
      unfold addReward
      simp only [upd_apply]
      split
      · rfl
      · exact hw
    · intro w hw
      have : w ≠ r.1 := by
        intro e
        exact hw r.2 (by rw [e]; exact List.mem_cons_self)
      rw [i4 w (fun x hx => hw x (List.mem_cons_of_mem _ hx))]
      unfold addReward
      exact upd_ne _ _ this
    · intro hn hf
      obtain ⟨n1, n2⟩ := List.nodup_cons.1 hn
      have e1 := u2 (hf r List.mem_cons_self)
      have e2 := i6 n2 ?_
      · omega
      · intro q hq
        simp only [addReward, mem_insertKey, not_or]
        refine ⟨?_, hf q (List.mem_cons_of_mem _ hq)⟩
        intro e
        exact n1 (by rw [← e]; exact List.mem_map_of_mem hq)

/-- The release build's sum is the sum when it fits. -/
theorem wrapSum_eq {rs : List (Acct × Nat)} (h : (rs.map Prod.snd).sum < U128) :
    wrapSum rs = (rs.map Prod.snd).sum := by
  have : ∀ (rs : List (Acct × Nat)) (t : Nat), t + (rs.map Prod.snd).sum < U128 →
      rs.foldl (fun t r => (t + r.2) % U128) t = t + (rs.map Prod.snd).sum := by
    intro rs
    induction rs with
    | nil => intro t _; simp
    | cons r rs ih =>
      intro t ht
      simp only [List.map_cons, List.sum_cons] at ht
      simp only [List.foldl_cons, List.map_cons, List.sum_cons]
      rw [Nat.mod_eq_of_lt (by omega), ih _ (by omega)]
      omega
  have := this rs 0 (by omega)
  unfold wrapSum
  omega

/-! ### The payout loop -/

/-- Induction over the payout loop. -/
theorem payLoop_ind {id : Nat} (P : Acc → Prop) : ∀ (ws : List Acct) (n : Nat) (acc : Acc),
    (∀ acc w, w ∈ ws → (acc.book w).2 = true → P acc → P { acc with last := c.rank w + 1 }) →
    (∀ acc w, w ∈ ws → (acc.book w).2 ≠ true → P acc → P (payOne c id acc w)) →
    P acc → P (payLoop c id ws n acc)
  | [], _, _, _, _, h => h
  | w :: ws, n, acc, h1, h2, h => by
    have h1' : ∀ acc w, w ∈ ws → (acc.book w).2 = true → P acc → P { acc with last := c.rank w + 1 } :=
      fun acc x hx => h1 acc x (List.mem_cons_of_mem _ hx)
    have h2' : ∀ acc w, w ∈ ws → (acc.book w).2 ≠ true → P acc → P (payOne c id acc w) :=
      fun acc x hx => h2 acc x (List.mem_cons_of_mem _ hx)
    unfold payLoop
    split
    · rename_i hf
      exact payLoop_ind P ws n _ h1' h2' (h1 acc w List.mem_cons_self hf h)
    · rename_i hf
      split
      · exact h2 acc w List.mem_cons_self hf h
      · exact payLoop_ind P ws (n + 1) _ h1' h2' (h2 acc w List.mem_cons_self hf h)

/-- Both outcomes of one payment. -/
theorem payOne_cases {id : Nat} {acc : Acc} {w : Acct} :
    (payOne c id acc w).book = upd acc.book w ((acc.book w).1, true) ∧
    (payOne c id acc w).last = c.rank w + 1 ∧
    ((∃ L, safeTransfer acc.ledger c.vtx c.vault w (acc.book w).1 = .ok L ∧
        (payOne c id acc w).ledger = L ∧
        (payOne c id acc w).events = acc.events ++ [.paid id w (acc.book w).1]) ∨
     (acc.ledger.bal c.vtx c.vault < (acc.book w).1 ∧
        (payOne c id acc w).ledger = acc.ledger ∧ (payOne c id acc w).events = acc.events)) := by
  unfold payOne
  split
  · rename_i L h
    exact ⟨rfl, rfl, .inl ⟨L, h, rfl, rfl⟩⟩
  · rename_i e h
    exact ⟨rfl, rfl, .inr ⟨safeTransfer_err h, rfl, rfl⟩⟩

/-- The loop moves forward, and everything up to the last key it visited is marked. -/
theorem payLoop_marks {id : Nat} : ∀ (ws : List Acct) (n : Nat) (acc : Acc), Sorted c ws →
    (∀ w ∈ ws, acc.last < c.rank w + 1) →
    (∀ w ∈ ws, c.rank w + 1 ≤ (payLoop c id ws n acc).last → ((payLoop c id ws n acc).book w).2 = true) ∧
    acc.last ≤ (payLoop c id ws n acc).last ∧
    (ws ≠ [] → acc.last < (payLoop c id ws n acc).last) ∧
    (∀ w, (acc.book w).2 = true → ((payLoop c id ws n acc).book w).2 = true)
  | [], n, acc, _, _ => by simp [payLoop]
  | w :: ws, n, acc, hs, hl => by
    obtain ⟨h1, h2⟩ := List.pairwise_cons.1 hs
    have hw := hl w List.mem_cons_self
    have key : ∀ (n' : Nat) (acc' : Acc), acc'.last = c.rank w + 1 → (acc'.book w).2 = true →
        (∀ x, (acc.book x).2 = true → (acc'.book x).2 = true) →
        (∀ x ∈ w :: ws, c.rank x + 1 ≤ (payLoop c id ws n' acc').last →
          ((payLoop c id ws n' acc').book x).2 = true) ∧
        acc.last ≤ (payLoop c id ws n' acc').last ∧
        (w :: ws ≠ [] → acc.last < (payLoop c id ws n' acc').last) ∧
        (∀ x, (acc.book x).2 = true → ((payLoop c id ws n' acc').book x).2 = true) := by
      intro n' acc' e1 e2 e3
      obtain ⟨i1, i2, _, i4⟩ := payLoop_marks (id := id) ws n' acc' h2
        (fun x hx => by have := h1 x hx; omega)
      refine ⟨?_, by omega, fun _ => by omega, fun x hx => i4 x (e3 x hx)⟩
      intro x hx hle
      rcases List.mem_cons.1 hx with rfl | hx
      · exact i4 x e2
      · exact i1 x hx hle
    unfold payLoop
    split
    · rename_i hf
      exact key n { acc with last := c.rank w + 1 } rfl hf (fun x hx => hx)
    · obtain ⟨b1, b2, _⟩ := payOne_cases (c := c) (id := id) (acc := acc) (w := w)
      have hm : ∀ x, (acc.book x).2 = true → ((payOne c id acc w).book x).2 = true := by
        intro x hx
        rw [b1, upd_apply]
        split
        · rfl
        · exact hx
      have hme : ((payOne c id acc w).book w).2 = true := by rw [b1, upd_same]
      split
      · refine ⟨?_, by omega, fun _ => by omega, hm⟩
        intro x hx hle
        rcases List.mem_cons.1 hx with rfl | hx
        · exact hme
        · have := h1 x hx
          omega
      · exact key (n + 1) (payOne c id acc w) b2 hme hm

end Verif.Vortex
