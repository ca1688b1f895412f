import Verif.Market.Pay

/-! # Invariants of the marketplace

Three independent parts: the schedule (`Struct`), the tokens (`Lk`) and the money (`Mi`). They are stated over the
storage items they depend on. -/

namespace Verif.Market

abbrev Book := Nat → Option Listing

/-! ## Schedule -/

/-- Every open listing is scheduled at its closing block, in the future; `pend` are the listings the block hook still
has to close. -/
structure Struct (ls : Book) (sched : Nat → List Nat) (now next : Nat) (pend : List Nat) : Prop where
  below : ∀ i l, ls i = some l → i < next
  at_ : ∀ b i, i ∈ sched b ↔ ∃ l, ls i = some l ∧ l.close = b ∧ i ∉ pend
  nodup : ∀ b, (sched b).Nodup
  future : ∀ i l, ls i = some l → now < l.close ∨ (i ∈ pend ∧ l.close = now)
  time : now + 40 < U32

theorem Struct.drop {ls : Book} {sched : Nat → List Nat} {now next : Nat} {pend pend' : List Nat}
    (h : Struct ls sched now next pend) {i : Nat} {l : Listing} (hl : ls i = some l)
    (hp : ∀ j, j ∈ pend' ↔ j ∈ pend ∧ j ≠ i) :
    Struct (upd ls i none) (upd sched l.close ((sched l.close).filter (fun j => decide (j ≠ i)))) now next pend' := by
  refine ⟨?_, ?_, ?_, ?_, h.time⟩
  · intro j x hj
    rw [upd_apply] at hj
    split at hj
    · cases hj
    · exact h.below j x hj
  · intro b j
    have key : j ∈ upd sched l.close ((sched l.close).filter (fun j => decide (j ≠ i))) b ↔ j ∈ sched b ∧ j ≠ i := by
      rw [upd_apply]
      split
      · rename_i hb; subst hb; simp
      · rename_i hb
        constructor
        · intro hj
          refine ⟨hj, ?_⟩
          rintro rfl
          obtain ⟨x, hx, hc, _⟩ := (h.at_ b j).mp hj
          rw [hl] at hx; cases hx
          exact hb hc.symm
        · exact fun hj => hj.1
    rw [key, h.at_]
    constructor
    · rintro ⟨⟨x, hx, hc, hn⟩, hne⟩
      exact ⟨x, by rw [upd_ne _ _ hne]; exact hx, hc, fun hj => hn ((hp j).mp hj).1⟩
    · rintro ⟨x, hx, hc, hn⟩
      rw [upd_apply] at hx
      split at hx
      · cases hx
      · rename_i hne
        exact ⟨⟨x, hx, hc, fun hj => hn ((hp j).mpr ⟨hj, hne⟩)⟩, hne⟩
  · intro b
    rw [upd_apply]
    split
    · exact (h.nodup _).filter _
    · exact h.nodup b
  · intro j x hj
    rw [upd_apply] at hj
    split at hj
    · cases hj
    · rename_i hne
      rcases h.future j x hj with hf | ⟨hf, hc⟩
      · exact Or.inl hf
      · exact Or.inr ⟨(hp j).mpr ⟨hf, hne⟩, hc⟩

theorem Struct.add {ls : Book} {sched : Nat → List Nat} {now next : Nat} (h : Struct ls sched now next []) {l : Listing}
    (hc : now < l.close) :
    Struct (upd ls next (some l)) (upd sched l.close (next :: sched l.close)) now (next + 1) [] := by
  have hfresh : ls next = none := by
    cases hx : ls next with
    | none => rfl
    | some x => exact absurd (h.below _ _ hx) (lt_irrefl _)
  have hnot : ∀ b, next ∉ sched b := by
    intro b hb
    obtain ⟨x, hx, _⟩ := (h.at_ b next).mp hb
    rw [hfresh] at hx; cases hx
  refine ⟨?_, ?_, ?_, ?_, h.time⟩
  · intro j x hj
    rw [upd_apply] at hj
    split at hj
    · rename_i he; omega
    · have := h.below j x hj; omega
  · intro b j
    have key : j ∈ upd sched l.close (next :: sched l.close) b ↔ (j = next ∧ b = l.close) ∨ j ∈ sched b := by
      rw [upd_apply]
      split
      · rename_i hb; subst hb; simp
      · rename_i hb; constructor
        · exact Or.inr
        · rintro (⟨_, hx⟩ | hx)
          · exact absurd hx hb
          · exact hx
    rw [key, h.at_]
    constructor
    · rintro (⟨rfl, rfl⟩ | ⟨x, hx, hc, hn⟩)
      · exact ⟨l, upd_same _ _ _, rfl, List.not_mem_nil⟩
      · have hne : j ≠ next := by rintro rfl; rw [hfresh] at hx; cases hx
        exact ⟨x, by rw [upd_ne _ _ hne]; exact hx, hc, hn⟩
    · rintro ⟨x, hx, hc, hn⟩
      rw [upd_apply] at hx
      split at hx
      · cases hx; exact Or.inl ⟨by assumption, hc.symm⟩
      · exact Or.inr ⟨x, hx, hc, hn⟩
  · intro b
    rw [upd_apply]
    split
    · exact List.nodup_cons.mpr ⟨hnot _, h.nodup _⟩
    · exact h.nodup b
  · intro j x hj
    rw [upd_apply] at hj
    split at hj
    · cases hj; exact Or.inl hc
    · exact h.future j x hj

/-- The price of a listing changes. -/
theorem Struct.same {ls : Book} {sched : Nat → List Nat} {now next : Nat} (h : Struct ls sched now next []) {i : Nat}
    {l l' : Listing} (hl : ls i = some l) (hc : l'.close = l.close) : Struct (upd ls i (some l')) sched now next [] := by
  refine ⟨?_, ?_, h.nodup, ?_, h.time⟩
  · intro j x hj
    rw [upd_apply] at hj
    split at hj
    · rename_i he; subst he; exact h.below _ _ hl
    · exact h.below j x hj
  · intro b j
    rw [h.at_]
    by_cases he : j = i
    · subst he
      constructor
      · rintro ⟨x, hx, hb, hn⟩
        rw [hl] at hx; cases hx
        exact ⟨l', upd_same _ _ _, by rw [hc]; exact hb, hn⟩
      · rintro ⟨x, hx, hb, hn⟩
        rw [upd_same] at hx; cases hx
        exact ⟨l, hl, by rw [← hc]; exact hb, hn⟩
    · rw [upd_ne _ _ he]
  · intro j x hj
    rw [upd_apply] at hj
    split at hj
    · rename_i he; subst he; cases hj; rw [hc]; exact h.future _ _ hl
    · exact h.future j x hj

/-- The closing block of a listing changes. -/
theorem Struct.move {ls : Book} {sched : Nat → List Nat} {now next : Nat} (h : Struct ls sched now next []) {i : Nat}
    {l : Listing} (hl : ls i = some l) {b' : Nat} (hb' : now < b') :
    Struct (upd ls i (some { l with close := b' }))
      (upd (upd sched l.close ((sched l.close).filter (fun j => decide (j ≠ i)))) b'
        (i :: (upd sched l.close ((sched l.close).filter (fun j => decide (j ≠ i))) b'))) now next [] := by
  have hd := h.drop (pend' := []) hl (fun j => by simp)
  have hnone : ∀ b, i ∉ upd sched l.close ((sched l.close).filter (fun j => decide (j ≠ i))) b := by
    intro b hb
    obtain ⟨x, hx, _⟩ := (hd.at_ b i).mp hb
    rw [upd_same] at hx; cases hx
  refine ⟨?_, ?_, ?_, ?_, h.time⟩
  · intro j x hj
    rw [upd_apply] at hj
    split at hj
    · rename_i he; subst he; exact h.below _ _ hl
    · exact h.below j x hj
  · intro b j
    have key : j ∈ upd (upd sched l.close ((sched l.close).filter (fun j => decide (j ≠ i)))) b'
        (i :: (upd sched l.close ((sched l.close).filter (fun j => decide (j ≠ i))) b')) b ↔
        (j = i ∧ b = b') ∨ j ∈ upd sched l.close ((sched l.close).filter (fun j => decide (j ≠ i))) b := by
      generalize upd sched l.close ((sched l.close).filter (fun j => decide (j ≠ i))) = S
      rw [upd_apply]
      split
      · rename_i hb; subst hb; simp
      · rename_i hb; constructor
        · exact Or.inr
        · rintro (⟨_, hx⟩ | hx)
          · exact absurd hx hb
          · exact hx
    rw [key, hd.at_]
    constructor
    · rintro (⟨rfl, rfl⟩ | ⟨x, hx, hc, hn⟩)
      · exact ⟨_, upd_same _ _ _, rfl, List.not_mem_nil⟩
      · have hne : j ≠ i := by rintro rfl; rw [upd_same] at hx; cases hx
        rw [upd_ne _ _ hne] at hx
        exact ⟨x, by rw [upd_ne _ _ hne]; exact hx, hc, hn⟩
    · rintro ⟨x, hx, hc, hn⟩
      by_cases hne : j = i
      · subst hne
        rw [upd_same] at hx; cases hx
        exact Or.inl ⟨rfl, hc.symm⟩
      · rw [upd_ne _ _ hne] at hx
        exact Or.inr ⟨x, by rw [upd_ne _ _ hne]; exact hx, hc, hn⟩
  · intro b
    rw [upd_apply]
    split
    · exact List.nodup_cons.mpr ⟨hnone _, hd.nodup _⟩
    · exact hd.nodup b
  · intro j x hj
    rw [upd_apply] at hj
    split at hj
    · cases hj; exact Or.inl hb'
    · exact h.future j x hj

/-- A new block begins: what is scheduled for it is pending. -/
theorem Struct.tick {ls : Book} {sched : Nat → List Nat} {now next : Nat} (h : Struct ls sched now next []) {ids : List Nat}
    (hp : ids.Perm (sched (now + 1))) (ht : now + 41 < U32) :
    Struct ls (upd sched (now + 1) []) (now + 1) next ids := by
  have hmem : ∀ i, i ∈ ids ↔ ∃ l, ls i = some l ∧ l.close = now + 1 := by
    intro i
    rw [hp.mem_iff, h.at_]
    simp
  refine ⟨h.below, ?_, ?_, ?_, by omega⟩
  · intro b i
    rw [upd_apply]
    split
    · rename_i hb
      subst hb
      constructor
      · intro hx; exact (List.not_mem_nil hx).elim
      · rintro ⟨l, hl, hc, hn⟩
        exact absurd ((hmem i).mpr ⟨l, hl, hc⟩) hn
    · rename_i hb
      rw [h.at_]
      constructor
      · rintro ⟨l, hl, hc, _⟩
        refine ⟨l, hl, hc, fun hi => ?_⟩
        obtain ⟨x, hx, hy⟩ := (hmem i).mp hi
        rw [hl] at hx; cases hx
        exact hb (hc.symm.trans hy)
      · rintro ⟨l, hl, hc, _⟩
        exact ⟨l, hl, hc, List.not_mem_nil⟩
  · intro b
    rw [upd_apply]
    split
    · exact List.nodup_nil
    · exact h.nodup b
  · intro i l hl
    rcases h.future i l hl with hf | ⟨hf, _⟩
    · by_cases he : l.close = now + 1
      · exact Or.inr ⟨(hmem i).mpr ⟨l, hl, he⟩, he⟩
      · exact Or.inl (by omega)
    · exact (List.not_mem_nil hf).elim

theorem Struct.skip {ls : Book} {sched : Nat → List Nat} {now next i : Nat} {ids : List Nat}
    (h : Struct ls sched now next (i :: ids)) (hn : ls i = none) : Struct ls sched now next ids := by
  refine ⟨h.below, ?_, h.nodup, ?_, h.time⟩
  · intro b j
    rw [h.at_]
    constructor
    · rintro ⟨l, hl, hc, hx⟩
      exact ⟨l, hl, hc, fun hj => hx (List.mem_cons_of_mem _ hj)⟩
    · rintro ⟨l, hl, hc, hx⟩
      refine ⟨l, hl, hc, fun hj => ?_⟩
      rcases List.mem_cons.mp hj with rfl | hj
      · rw [hn] at hl; cases hl
      · exact hx hj
  · intro j l hl
    rcases h.future j l hl with hf | ⟨hf, hc⟩
    · exact Or.inl hf
    · rcases List.mem_cons.mp hf with rfl | hf
      · rw [hn] at hl; cases hl
      · exact Or.inr ⟨hf, hc⟩

/-! ## Tokens -/

/-- The quantity of an SFT in a bundle. -/
def tokQty : Tokens → Nat → Nat → Nat
  | .nft _ _, _, _ => 0
  | .sft j xs, id, n => if j = id then Sft.qty xs n else 0

/-- The quantity of an SFT an account has in a listing. -/
def listedQty (x : Option Listing) (id n : Nat) (a : Acct) : Nat :=
  match x with
  | some l => if l.seller = a then tokQty l.tokens id n else 0
  | none => 0

/-- Every token of an open listing is locked by it and owned by the seller; reserves cover the listed quantities and
`P`, quantities of listings just removed. -/
structure Lk (c : Cfg) (nft : Nft.St) (sft : Sft.St) (ls : Book) (next : Nat) (P : Nat → Nat → Acct → Nat) : Prop where
  nr : Nft.Reach c.nft Nft.Bridged nft
  si : Sft.SI c.sft sft
  low : ∀ id n i, nft.locks id n = some i → i < next
  nft : ∀ i l id ns, ls i = some l → l.tokens = .nft id ns → ns ≠ [] ∧ ns.Nodup ∧
    ∀ n ∈ ns, nft.locks id n = some i ∧ Nft.ownerOf nft id n = some l.seller
  sft : ∀ id n a, ∃ T, TotalIs (fun i => listedQty (ls i) id n a) T ∧ T + P id n a ≤ Sft.res sft id n a
  nz : ∀ i l id xs, ls i = some l → l.tokens = .sft id xs → ∀ x ∈ xs, x.2 ≠ 0

theorem Lk.weaken {c : Cfg} {nft : Nft.St} {sft : Sft.St} {ls : Book} {next : Nat} {P Q : Nat → Nat → Acct → Nat}
    (h : Lk c nft sft ls next P) (hq : ∀ id n a, Q id n a ≤ P id n a) : Lk c nft sft ls next Q :=
  ⟨h.nr, h.si, h.low, h.nft, fun id n a => by
    obtain ⟨T, h1, h2⟩ := h.sft id n a
    exact ⟨T, h1, by have := hq id n a; omega⟩, h.nz⟩

theorem Lk.drop {c : Cfg} {nft : Nft.St} {sft : Sft.St} {ls : Book} {next : Nat} {P : Nat → Nat → Acct → Nat}
    (h : Lk c nft sft ls next P) {i : Nat} {l : Listing} (hl : ls i = some l) :
    Lk c nft sft (upd ls i none) next (fun id n a => P id n a + if a = l.seller then tokQty l.tokens id n else 0) := by
  have hsub : ∀ j x, upd ls i none j = some x → ls j = some x := by
    intro j x hj
    rw [upd_apply] at hj
    split at hj
    · cases hj
    · exact hj
  refine ⟨h.nr, h.si, h.low, fun j x id ns hj ht => h.nft j x id ns (hsub j x hj) ht, fun id n a => ?_,
    fun j x id xs hj ht => h.nz j x id xs (hsub j x hj) ht⟩
  obtain ⟨T, h1, h2⟩ := h.sft id n a
  have hu := h1.upd i 0
  have hle := h1.le i
  have e : listedQty (ls i) id n a = if a = l.seller then tokQty l.tokens id n else 0 := by
    rw [hl]
    unfold listedQty
    dsimp only
    by_cases ha : l.seller = a
    · rw [if_pos ha, if_pos ha.symm]
    · rw [if_neg ha, if_neg (fun hx => ha hx.symm)]
  refine ⟨_, hu.congr (fun j => ?_), ?_⟩
  · rw [upd_apply, upd_apply]
    split <;> rfl
  · rw [← e]; omega

/-- Listing `i` changes in ways that do not concern its tokens. -/
theorem Lk.relist {c : Cfg} {nft : Nft.St} {sft : Sft.St} {ls : Book} {next : Nat} {P : Nat → Nat → Acct → Nat}
    (h : Lk c nft sft ls next P) {i : Nat} {l l' : Listing} (hl : ls i = some l) (ht : l'.tokens = l.tokens)
    (hs : l'.seller = l.seller) : Lk c nft sft (upd ls i (some l')) next P := by
  refine ⟨h.nr, h.si, h.low, ?_, fun id n a => ?_, ?_⟩
  · intro j x id ns hj hx
    rw [upd_apply] at hj
    split at hj
    · rename_i he; subst he; cases hj
      rw [ht] at hx; rw [hs]
      exact h.nft _ _ _ _ hl hx
    · exact h.nft j x id ns hj hx
  · obtain ⟨T, h1, h2⟩ := h.sft id n a
    refine ⟨T, h1.congr (fun j => ?_), h2⟩
    rw [upd_apply]
    split
    · rename_i he; subst he; rw [hl]; unfold listedQty; dsimp only; rw [ht, hs]
    · rfl
  · intro j x id xs hj hx
    rw [upd_apply] at hj
    split at hj
    · rename_i he; subst he; cases hj
      rw [ht] at hx
      exact h.nz _ _ _ _ hl hx
    · exact h.nz j x id xs hj hx

/-- Locks of tokens that are in no open listing are removed. -/
theorem Lk.unlock {c : Cfg} {nft : Nft.St} {sft : Sft.St} {ls : Book} {next : Nat} {P : Nat → Nat → Acct → Nat}
    (h : Lk c nft sft ls next P) {id : Nat} {ns : List Nat}
    (hn : ∀ n ∈ ns, ∀ i, nft.locks id n = some i → ls i = none) : Lk c (unlockNft id ns nft) sft ls next P := by
  refine ⟨unlockNft_reach id ns h.nr, h.si, ?_, ?_, h.sft, h.nz⟩
  · intro j m i hi
    rw [unlockNft_locks] at hi
    split at hi
    · cases hi
    · exact h.low j m i hi
  · intro i l j ms hl ht
    obtain ⟨h0, h1, h2⟩ := h.nft i l j ms hl ht
    refine ⟨h0, h1, fun m hm => ?_⟩
    obtain ⟨h3, h4⟩ := h2 m hm
    rw [unlockNft_locks, Nft.ownerOf_congr (unlockNft_coll id ns nft).1, if_neg]
    · exact ⟨h3, h4⟩
    · rintro ⟨rfl, hm'⟩
      rw [hn m hm' i h3] at hl
      cases hl

/-- An operation of others on NFTs. -/
theorem Lk.nftStep {c : Cfg} {nft nft' : Nft.St} {sft : Sft.St} {ls : Book} {next : Nat} {P : Nat → Nat → Acct → Nat}
    (h : Lk c nft sft ls next P) {op : Nft.Op} (hg : NftOutside nft op) (hs : Nft.step c.nft nft op = .ok nft') :
    Lk c nft' sft ls next P := by
  obtain ⟨hk, hb⟩ := nft_locks hs hg
  refine ⟨h.nr.step hb hs, h.si, by rw [hk]; exact h.low, ?_, h.sft, h.nz⟩
  intro i l id ns hl ht
  obtain ⟨h0, h1, h2⟩ := h.nft i l id ns hl ht
  refine ⟨h0, h1, fun n hn => ?_⟩
  obtain ⟨h3, h4⟩ := h2 n hn
  refine ⟨by rw [hk]; exact h3, ?_⟩
  by_contra hne
  have := (Nft.C25_only_owner_moves h.nr hb hs h4 hne).1
  rw [h3] at this
  cases this

/-- An operation of others on SFTs. -/
theorem Lk.sftStep {c : Cfg} {nft : Nft.St} {sft sft' : Sft.St} {ls : Book} {next : Nat} {P : Nat → Nat → Acct → Nat}
    (h : Lk c nft sft ls next P) {op : Sft.Op} (hg : SftOutside op) (hs : Sft.step c.sft sft op = .ok sft') :
    Lk c nft sft' ls next P := by
  refine ⟨h.nr, h.si.step hs, h.low, h.nft, fun id n a => ?_, h.nz⟩
  rw [sft_res h.si hs hg]
  exact h.sft id n a

/-- Reserves are freed. -/
theorem Lk.unreserve {c : Cfg} {nft : Nft.St} {sft sft' : Sft.St} {ls : Book} {next : Nat} {P : Nat → Nat → Acct → Nat}
    {id : Nat} {xs : List (Nat × Nat)} {who : Acct}
    (h : Lk c nft sft ls next (fun j n a => P j n a + if a = who then tokQty (.sft id xs) j n else 0))
    (hs : unreserveAll who id xs sft = .ok sft') : Lk c nft sft' ls next P := by
  obtain ⟨i, e1, _⟩ := unreserveAll_ok (c := c.sft) hs
  refine ⟨h.nr, i h.si, h.low, h.nft, fun j n a => ?_, h.nz⟩
  obtain ⟨T, h1, h2⟩ := h.sft j n a
  refine ⟨T, h1, ?_⟩
  have e := e1 j n a
  simp only [tokQty] at h2
  by_cases ha : a = who
  · by_cases hj : j = id
    · rw [if_pos ⟨hj, ha⟩] at e
      rw [if_pos ha, if_pos hj.symm] at h2
      omega
    · rw [if_neg (fun hx => hj hx.1)] at e
      rw [if_pos ha, if_neg (fun hx => hj hx.symm)] at h2
      omega
  · rw [if_neg (fun hx => ha hx.2)] at e
    rw [if_neg ha] at h2
    omega

/-- The reserve of the tokens of a removed listing can be freed. -/
theorem Lk.can_unreserve {c : Cfg} {nft : Nft.St} {sft : Sft.St} {ls : Book} {next : Nat} {P : Nat → Nat → Acct → Nat}
    {id : Nat} {xs : List (Nat × Nat)} {who : Acct}
    (h : Lk c nft sft ls next (fun j n a => P j n a + if a = who then tokQty (.sft id xs) j n else 0))
    (h0 : ∀ x ∈ xs, x.2 ≠ 0) : ∃ t, unreserveAll who id xs sft = .ok t := by
  refine unreserveAll_succeeds h.si h0 (fun m => ?_)
  obtain ⟨T, _, h2⟩ := h.sft id m who
  simp only [tokQty, if_true] at h2
  omega

/-- Tokens are locked and listed. -/
theorem Lk.list {c : Cfg} {s s1 : St} {who : Acct} {t : Tokens} {P : Nat → Nat → Acct → Nat}
    (h : Lk c s.nft s.sft s.listings s.nextListing P) (hb : ∀ i l, s.listings i = some l → i < s.nextListing)
    (hv : validate c t = .ok ()) (hs : lockTokens s who s.nextListing t = .ok s1) {l : Listing} (ht : l.tokens = t)
    (hw : l.seller = who) :
    (∃ n f, s1 = { s with nft := n, sft := f }) ∧
    Lk c s1.nft s1.sft (upd s.listings s.nextListing (some l)) (s.nextListing + 1) P := by
  have hfresh : s.listings s.nextListing = none := by
    cases hx : s.listings s.nextListing with
    | none => rfl
    | some x => exact absurd (hb _ _ hx) (lt_irrefl _)
  have hold : ∀ j x, j ≠ s.nextListing → upd s.listings s.nextListing (some l) j = some x → s.listings j = some x := by
    intro j x hj hx; rwa [upd_ne _ _ hj] at hx
  cases t with
  | nft id ns =>
    simp only [lockTokens, bind_ok, pure_ok] at hs
    obtain ⟨n', hn', rfl⟩ := hs
    obtain ⟨d1, d2, d3, d4, d5⟩ := lockNft_ok (c := c.nft) hn'
    refine ⟨⟨n', s.sft, rfl⟩, d5 h.nr, h.si, ?_, ?_, ?_, ?_⟩
    · intro j m i hi
      dsimp only at hi
      rw [d3] at hi
      split at hi
      · cases hi; omega
      · have := h.low j m i hi; omega
    · intro i x j ms hx htx
      dsimp only
      rw [upd_apply] at hx
      split at hx
      · rename_i he
        cases hx
        rw [ht] at htx; cases htx
        simp only [validate, ensure_ok] at hv
        refine ⟨hv.1, d4, fun m hm => ?_⟩
        rw [d3, if_pos ⟨rfl, hm⟩, Nft.ownerOf_congr d1, hw]
        exact ⟨by rw [he], (d2 m hm).2⟩
      · rename_i he
        obtain ⟨h0, h1, h2⟩ := h.nft i x j ms hx htx
        refine ⟨h0, h1, fun m hm => ?_⟩
        obtain ⟨h3, h4⟩ := h2 m hm
        rw [d3, Nft.ownerOf_congr d1, if_neg]
        · exact ⟨h3, h4⟩
        · rintro ⟨rfl, hm'⟩
          rw [(d2 m hm').1] at h3
          cases h3
    · intro j m a
      obtain ⟨T, h1, h2⟩ := h.sft j m a
      refine ⟨T, h1.congr (fun i => ?_), h2⟩
      rw [upd_apply]
      split
      · rename_i he; rw [he, hfresh]; unfold listedQty; dsimp only; rw [ht]; unfold tokQty; split <;> rfl
      · rfl
    · intro i x j ms hx htx
      by_cases he : i = s.nextListing
      · subst he; rw [upd_same] at hx; cases hx; rw [ht] at htx; cases htx
      · exact h.nz i x j ms (hold i x he hx) htx
  | sft id xs =>
    simp only [lockTokens, bind_ok, pure_ok] at hs
    obtain ⟨f', hf', rfl⟩ := hs
    obtain ⟨d1, d2, d3⟩ := reserveAll_ok (c := c.sft) hf'
    refine ⟨⟨s.nft, f', rfl⟩, h.nr, d1 h.si, ?_, ?_, ?_, ?_⟩
    · intro j m i hi
      have := h.low j m i hi; omega
    · intro i x j ms hx htx
      by_cases he : i = s.nextListing
      · subst he; rw [upd_same] at hx; cases hx; rw [ht] at htx; cases htx
      · exact h.nft i x j ms (hold i x he hx) htx
    · intro j m a
      obtain ⟨T, h1, h2⟩ := h.sft j m a
      have hu := h1.upd s.nextListing (listedQty (some l) j m a)
      rw [hfresh] at hu
      refine ⟨_, hu.congr (fun i => ?_), ?_⟩
      · rw [upd_apply, upd_apply]
        split <;> rfl
      · dsimp only
        rw [d2]
        unfold listedQty tokQty
        dsimp only
        rw [ht, hw]
        dsimp only
        by_cases ha : who = a
        · by_cases hj : j = id
          · rw [if_pos ha, if_pos hj.symm, if_pos ⟨hj, ha.symm⟩]; omega
          · rw [if_pos ha, if_neg (fun hx => hj hx.symm)]; omega
        · rw [if_neg ha]; omega
    · intro i x j ms hx htx
      by_cases he : i = s.nextListing
      · subst he; rw [upd_same] at hx; cases hx; rw [ht] at htx; cases htx
        simp only [validate, bind_ok, ensure_ok] at hv
        obtain ⟨_, _, hv⟩ := hv
        exact hv
      · exact h.nz i x j ms (hold i x he hx) htx

/-- The tokens of a removed listing, or a token in no open listing, are unlocked and handed over. -/
theorem Lk.transfer {c : Cfg} {s s' : St} {src dst : Acct} {t : Tokens} {P : Nat → Nat → Acct → Nat}
    (h : Lk c s.nft s.sft s.listings s.nextListing (fun j n a => P j n a + if a = src then tokQty t j n else 0))
    (hn : ∀ id ns, t = .nft id ns → ∀ n ∈ ns, ∀ i, s.nft.locks id n = some i → s.listings i = none)
    (hs : unlockTransfer c s src dst t = .ok s') :
    (∃ n f, s' = { s with nft := n, sft := f }) ∧ Lk c s'.nft s'.sft s'.listings s'.nextListing P := by
  cases t with
  | nft id ns =>
    simp only [unlockTransfer, bind_ok, ensure_ok, pure_ok] at hs
    obtain ⟨_, _, n', h1, rfl⟩ := hs
    refine ⟨⟨n', s.sft, rfl⟩, ?_⟩
    have h2 := (h.unlock (hn id ns rfl)).nftStep (op := .transfer src id ns dst) (by exact trivial) h1
    exact h2.weaken (fun _ _ _ => Nat.le_add_right _ _)
  | sft id xs =>
    simp only [unlockTransfer, bind_ok, pure_ok] at hs
    obtain ⟨f1, h1, f2, h2, rfl⟩ := hs
    exact ⟨⟨s.nft, f2, rfl⟩, (h.unreserve h1).sftStep (op := .transfer src id xs dst) (by exact trivial) h2⟩

/-- The tokens of a removed listing are unlocked. -/
theorem Lk.unlockSoft {c : Cfg} {s : St} {src : Acct} {t : Tokens} {P : Nat → Nat → Acct → Nat}
    (h : Lk c s.nft s.sft s.listings s.nextListing (fun j n a => P j n a + if a = src then tokQty t j n else 0))
    (hn : ∀ id ns, t = .nft id ns → ∀ n ∈ ns, ∀ i, s.nft.locks id n = some i → s.listings i = none)
    (h0 : ∀ id xs, t = .sft id xs → ∀ x ∈ xs, x.2 ≠ 0) :
    (∃ n f, unlockSoft s src t = { s with nft := n, sft := f }) ∧
    unlockTokens s src t = .ok (unlockSoft s src t) ∧
    Lk c (unlockSoft s src t).nft (unlockSoft s src t).sft s.listings s.nextListing P := by
  cases t with
  | nft id ns =>
    exact ⟨⟨_, _, rfl⟩, rfl, (h.unlock (hn id ns rfl)).weaken (fun _ _ _ => Nat.le_add_right _ _)⟩
  | sft id xs =>
    obtain ⟨f, hf⟩ := h.can_unreserve (h0 id xs rfl)
    have e := unreserveSoft_eq hf
    refine ⟨⟨_, _, rfl⟩, ?_, ?_⟩
    · simp only [unlockTokens, Market.unlockSoft, hf, e]
      rfl
    · unfold Market.unlockSoft
      dsimp only
      rw [e]
      exact h.unreserve hf

end Verif.Market
