import Verif.Outbound.Data

/-! # What the pegs put into messages is in range, and their records only grow -/

namespace Verif.Outbound

open Verif Abi

/-! ## The ERC-20 peg -/

structure PegTyped (p : Erc20Peg.St) : Prop where
  toErc : ∀ a t, p.toErc a = some t → t < 2 ^ 160
  payments : ∀ i src w, p.payments i = some (.withdrawal src w) → WdFits w
  outbox : ∀ m ∈ p.outbox, m.1 < 2 ^ 160 ∧ WdFits m.2
  contract : p.contract < 2 ^ 160
  rootContract : p.rootContract < 2 ^ 160

/-- Typed before, typed afterwards; and messages are only added. -/
def Grows (p p' : Erc20Peg.St) : Prop := (PegTyped p → PegTyped p') ∧ p.outbox <+: p'.outbox

theorem Grows.refl (p : Erc20Peg.St) : Grows p p := ⟨id, List.prefix_refl _⟩

theorem Grows.trans {p q r : Erc20Peg.St} (h : Grows p q) (k : Grows q r) : Grows p r :=
  ⟨fun x => k.1 (h.1 x), h.2.trans k.2⟩

/-- Only fields changed that do not matter here. -/
theorem Grows.other {p p' : Erc20Peg.St} (e1 : p'.toErc = p.toErc) (e2 : p'.payments = p.payments)
    (e3 : p'.outbox = p.outbox) (e4 : p'.contract = p.contract) (e5 : p'.rootContract = p.rootContract) : Grows p p' := by
  refine ⟨fun h => ⟨?_, ?_, ?_, ?_, ?_⟩, ?_⟩
  · rw [e1]; exact h.toErc
  · rw [e2]; exact h.payments
  · rw [e3]; exact h.outbox
  · rw [e4]; exact h.contract
  · rw [e5]; exact h.rootContract
  · rw [e3]

theorem grows_processWithdrawal {c : Erc20Peg.Cfg} {p : Erc20Peg.St} {w : Erc20Peg.Wd} {a : AssetId} (hw : WdFits w) :
    Grows p (Erc20Peg.processWithdrawal c p w a) := by
  refine ⟨fun h => ⟨h.toErc, h.payments, ?_, h.contract, h.rootContract⟩, ⟨_, rfl⟩⟩
  intro m hm
  rcases List.mem_append.mp hm with hm | hm
  · exact h.outbox m hm
  · cases List.mem_singleton.mp hm
    refine ⟨?_, hw⟩
    dsimp only
    split
    · exact h.rootContract
    · exact h.contract

theorem grows_processDeposit {c : Erc20Peg.Cfg} {p p' : Erc20Peg.St} {d : Erc20Peg.Dep} (hd : d.token < 2 ^ 160)
    (h : Erc20Peg.processDeposit c p d = .ok p') : Grows p p' := by
  simp only [Erc20Peg.processDeposit, bind_ok, pure_ok] at h
  obtain ⟨⟨q, a⟩, hq, L, _, rfl⟩ := h
  refine Grows.trans (q := q) ?_ (Grows.other rfl rfl rfl rfl rfl)
  unfold Erc20Peg.assetFor at hq
  split at hq
  · cases hq
    exact Grows.refl _
  · simp only [bind_ok, pure_ok] at hq
    obtain ⟨a', _, e⟩ := hq
    cases e
    refine ⟨fun h => ⟨?_, h.payments, h.outbox, h.contract, h.rootContract⟩, List.prefix_refl _⟩
    intro b t hb
    dsimp only at hb
    rw [upd_apply] at hb
    split at hb
    · cases hb
      exact hd
    · exact h.toErc b t hb

theorem PegTyped.forget {p : Erc20Peg.St} (h : PegTyped p) (i : Nat) :
    PegTyped { p with payments := upd p.payments i none } := by
  refine ⟨h.toErc, ?_, h.outbox, h.contract, h.rootContract⟩
  intro j src w hj
  dsimp only at hj
  rw [upd_apply] at hj
  split at hj
  · cases hj
  · exact h.payments j src w hj

/-- Deposits in waiting payments are in range. -/
def DepTyped (p : Erc20Peg.St) : Prop := ∀ i d, p.payments i = some (.deposit d) → d.token < 2 ^ 160

/-- Both. -/
def Typed (p : Erc20Peg.St) : Prop := PegTyped p ∧ DepTyped p

theorem DepTyped.forget {p : Erc20Peg.St} (h : DepTyped p) (i : Nat) :
    DepTyped { p with payments := upd p.payments i none } := by
  intro j d hj
  dsimp only at hj
  rw [upd_apply] at hj
  split at hj
  · cases hj
  · exact h j d hj

theorem payments_processDeposit {c : Erc20Peg.Cfg} {p p' : Erc20Peg.St} {d : Erc20Peg.Dep}
    (h : Erc20Peg.processDeposit c p d = .ok p') : p'.payments = p.payments := by
  simp only [Erc20Peg.processDeposit, bind_ok, pure_ok] at h
  obtain ⟨⟨q, a⟩, hq, L, _, rfl⟩ := h
  unfold Erc20Peg.assetFor at hq
  split at hq
  · cases hq
    rfl
  · simp only [bind_ok, pure_ok] at hq
    obtain ⟨a', _, e⟩ := hq
    cases e
    rfl

theorem DepTyped.congr {p p' : Erc20Peg.St} (h : DepTyped p) (e : p'.payments = p.payments) : DepTyped p' := by
  intro i d hi
  rw [e] at hi
  exact h i d hi

theorem process_typed {c : Erc20Peg.Cfg} {p : Erc20Peg.St} {i : Nat} (h : Typed p) :
    Typed (Erc20Peg.process c p i) ∧ p.outbox <+: (Erc20Peg.process c p i).outbox := by
  have hf := h.1.forget i
  have hfd := h.2.forget i
  unfold Erc20Peg.process
  split
  · exact ⟨h, List.prefix_refl _⟩
  · rename_i d hd
    split
    · rename_i q hq
      have g := grows_processDeposit (h.2 i d hd) hq
      exact ⟨⟨g.1 hf, hfd.congr (payments_processDeposit hq)⟩, g.2⟩
    · exact ⟨⟨⟨hf.toErc, hf.payments, hf.outbox, hf.contract, hf.rootContract⟩, hfd⟩, List.prefix_refl _⟩
  · rename_i src w hw
    split
    · rename_i a _
      have g := grows_processWithdrawal (c := c) (a := a) (p := { p with payments := upd p.payments i none })
        (h.1.payments i src w hw)
      exact ⟨⟨g.1 hf, hfd⟩, g.2⟩
    · exact ⟨⟨hf, hfd⟩, List.prefix_refl _⟩

theorem foldl_typed {c : Erc20Peg.Cfg} : ∀ (ids : List Nat) {p : Erc20Peg.St}, Typed p →
    Typed (ids.foldl (Erc20Peg.process c) p) ∧ p.outbox <+: (ids.foldl (Erc20Peg.process c) p).outbox
  | [], _, h => ⟨h, List.prefix_refl _⟩
  | i :: ids, p, h => by
    obtain ⟨h1, h2⟩ := process_typed (c := c) (i := i) h
    obtain ⟨h3, h4⟩ := foldl_typed (c := c) ids h1
    exact ⟨h3, h2.trans h4⟩

theorem Typed.other {p p' : Erc20Peg.St} (h : Typed p) (e1 : p'.toErc = p.toErc) (e2 : p'.payments = p.payments)
    (e3 : p'.outbox = p.outbox) (e4 : p'.contract = p.contract) (e5 : p'.rootContract = p.rootContract) : Typed p' :=
  ⟨(Grows.other e1 e2 e3 e4 e5).1 h.1, h.2.congr e2⟩

theorem idle_typed {c : Erc20Peg.Cfg} {m : Nat} : ∀ (bs : List Nat) {p : Erc20Peg.St} (n k : Nat), Typed p →
    Typed (Erc20Peg.idleLoop c m bs p n k).1 ∧ p.outbox <+: (Erc20Peg.idleLoop c m bs p n k).1.outbox
  | [], _, _, _, h => ⟨h, List.prefix_refl _⟩
  | b :: bs, p, n, k, h => by
    unfold Erc20Peg.idleLoop
    dsimp only
    have h0 : Typed { p with sched := upd p.sched b (if m - n < ((p.sched b).getD []).length then
        some (((p.sched b).getD []).drop (m - n)) else none) } := h.other rfl rfl rfl rfl rfl
    obtain ⟨h1, h2⟩ := foldl_typed (c := c) (((p.sched b).getD []).take (m - n)) h0
    split
    · exact ⟨h1, h2⟩
    · obtain ⟨h3, h4⟩ := idle_typed (c := c) (m := m) bs _ _ h1
      exact ⟨h3, h2.trans h4⟩

theorem delay_typed {p : Erc20Peg.St} {n : Nat} {q : Erc20Peg.Payment} (h : Typed p)
    (hw : ∀ src w, q = .withdrawal src w → WdFits w) (hd : ∀ d, q = .deposit d → d.token < 2 ^ 160) :
    Typed (Erc20Peg.delayPayment p n q) ∧ p.outbox <+: (Erc20Peg.delayPayment p n q).outbox := by
  unfold Erc20Peg.delayPayment
  split
  · refine ⟨⟨⟨h.1.toErc, ?_, h.1.outbox, h.1.contract, h.1.rootContract⟩, ?_⟩, List.prefix_refl _⟩
    · intro i src w hi
      dsimp only at hi
      rw [upd_apply] at hi
      split at hi
      · exact hw src w (Option.some.inj hi)
      · exact h.1.payments i src w hi
    · intro i d hi
      dsimp only at hi
      rw [upd_apply] at hi
      split at hi
      · exact hd d (Option.some.inj hi)
      · exact h.2 i d hi
  · exact ⟨h, List.prefix_refl _⟩

theorem deposit_typed {c : Erc20Peg.Cfg} {p p' : Erc20Peg.St} {src : Nat} {d : Erc20Peg.Dep} (h : Typed p)
    (hd : d.token < 2 ^ 160) (he : Erc20Peg.deposit c p src d = .ok p') :
    Typed p' ∧ p'.outbox = p.outbox ∧ p'.accepted = p.accepted ++ [d] ∧ (src = p.contract ∨ src = p.rootContract) := by
  simp only [Erc20Peg.deposit, bind_ok, ensure_ok] at he
  obtain ⟨_, h1, _, _, _, _, r, hr, he⟩ := he
  have hsrc := h1
  cases r with
  | some n =>
    simp only [pure_ok] at he
    subst he
    obtain ⟨h2, h3⟩ := delay_typed (n := n) (q := .deposit d) h (fun _ _ e => by cases e)
      (fun d' e => by cases e; exact hd)
    refine ⟨h2.other rfl rfl rfl rfl rfl, ?_, ?_, hsrc⟩
    · unfold Erc20Peg.accept Erc20Peg.delayPayment
      split <;> rfl
    · unfold Erc20Peg.accept Erc20Peg.delayPayment
      split <;> rfl
  | none =>
    simp only [bind_ok, pure_ok] at he
    obtain ⟨q, hq, rfl⟩ := he
    have g := grows_processDeposit hd hq
    have hp := payments_processDeposit hq
    have ho : q.outbox = p.outbox ∧ q.accepted = p.accepted := by
      simp only [Erc20Peg.processDeposit, bind_ok, pure_ok] at hq
      obtain ⟨⟨q', a⟩, hq, L, _, rfl⟩ := hq
      unfold Erc20Peg.assetFor at hq
      split at hq
      · cases hq
        exact ⟨rfl, rfl⟩
      · simp only [bind_ok, pure_ok] at hq
        obtain ⟨a', _, e⟩ := hq
        cases e
        exact ⟨rfl, rfl⟩
    refine ⟨Typed.other (p := q) ⟨g.1 h.1, h.2.congr hp⟩ rfl rfl rfl rfl rfl, ho.1, ?_, hsrc⟩
    show q.accepted ++ [d] = _
    rw [ho.2]

theorem u128_256 {n : Nat} (h : n < U128) : n < 2 ^ 256 := by
  unfold U128 at h
  exact Nat.lt_trans h (by norm_num)

/-- Every operation of the peg keeps what it will send in range, and only adds messages. -/
theorem peg_typed {cc : Cfg} {S : St} {c : Erc20Peg.Cfg} {p p' : Erc20Peg.St} {op : Erc20Peg.Op} (h : Typed p)
    (hop : Env cc S (.peg op)) (he : Erc20Peg.step c p op = .ok p') : Typed p' ∧ p.outbox <+: p'.outbox := by
  cases op with
  | withdraw w a x b e =>
    simp only [Erc20Peg.step, Erc20Peg.withdraw, bind_ok, ensure_ok, okOr_ok] at he
    obtain ⟨_, hx, _, _, t, ht, he⟩ := he
    have hw : WdFits ⟨t, x, b⟩ := ⟨h.1.toErc a t ht, u128_256 hx, hop⟩
    split at he
    · simp only [bind_ok, ensure_ok, pure_ok] at he
      obtain ⟨_, _, L, _, rfl⟩ := he
      exact delay_typed (h.other rfl rfl rfl rfl rfl) (fun _ _ e => by cases e; exact hw) (fun _ e => by cases e)
    · simp only [bind_ok, pure_ok] at he
      obtain ⟨L, _, rfl⟩ := he
      have g := grows_processWithdrawal (c := c) (a := a) (p := { p with ledger := L }) hw
      exact ⟨⟨g.1 (h.other (p' := { p with ledger := L }) rfl rfl rfl rfl rfl).1, h.2.congr rfl⟩, g.2⟩
  | deposit src d => exact hop.elim
  | nextBlock =>
    simp only [Erc20Peg.step, Erc20Peg.nextBlock, bind_ok, ensure_ok, pure_ok] at he
    obtain ⟨_, _, rfl⟩ := he
    split
    · exact ⟨h.other rfl rfl rfl rfl rfl, List.prefix_refl _⟩
    · exact ⟨h.other rfl rfl rfl rfl rfl, List.prefix_refl _⟩
  | idle m =>
    simp only [Erc20Peg.step, Erc20Peg.idle, bind_ok, ensure_ok, pure_ok] at he
    obtain ⟨_, _, rfl⟩ := he
    obtain ⟨h1, h2⟩ := idle_typed (c := c) (m := m) p.ready 0 0 h
    exact ⟨h1.other rfl rfl rfl rfl rfl, h2⟩
  | claim b i =>
    simp only [Erc20Peg.step, Erc20Peg.claim, bind_ok, ensure_ok, pure_ok] at he
    obtain ⟨_, _, rfl⟩ := he
    exact process_typed (h.other rfl rfl rfl rfl rfl)
  | setActive a b d e => cases he; exact ⟨h.other rfl rfl rfl rfl rfl, List.prefix_refl _⟩
  | setContracts a b =>
    cases he
    exact ⟨⟨⟨h.1.toErc, h.1.payments, h.1.outbox, hop.1, hop.2⟩, h.2⟩, List.prefix_refl _⟩
  | setMap a t =>
    cases he
    refine ⟨⟨⟨?_, h.1.payments, h.1.outbox, h.1.contract, h.1.rootContract⟩, h.2⟩, List.prefix_refl _⟩
    intro b t' hb
    dsimp only at hb
    rw [upd_apply] at hb
    split at hb
    · cases hb
      exact hop
    · exact h.1.toErc b t' hb
  | setDelay a m d => cases he; exact ⟨h.other rfl rfl rfl rfl rfl, List.prefix_refl _⟩
  | takeAsset =>
    simp only [Erc20Peg.step, bind_ok, pure_ok] at he
    obtain ⟨_, _, rfl⟩ := he
    exact ⟨h.other rfl rfl rfl rfl rfl, List.prefix_refl _⟩
  | ledger L => cases he; exact ⟨h.other rfl rfl rfl rfl rfl, List.prefix_refl _⟩

theorem process_accepted {c : Erc20Peg.Cfg} (p : Erc20Peg.St) (i : Nat) :
    (Erc20Peg.process c p i).accepted = p.accepted := by
  unfold Erc20Peg.process
  split
  · rfl
  · split
    · rename_i d _ q hq
      simp only [Erc20Peg.processDeposit, bind_ok, pure_ok] at hq
      obtain ⟨⟨q', a⟩, hq, L, _, rfl⟩ := hq
      unfold Erc20Peg.assetFor at hq
      split at hq
      · cases hq
        rfl
      · simp only [bind_ok, pure_ok] at hq
        obtain ⟨a', _, e⟩ := hq
        cases e
        rfl
    · rfl
  · split <;> rfl

theorem foldl_accepted {c : Erc20Peg.Cfg} : ∀ (ids : List Nat) (p : Erc20Peg.St),
    (ids.foldl (Erc20Peg.process c) p).accepted = p.accepted
  | [], _ => rfl
  | i :: ids, p => (foldl_accepted ids _).trans (process_accepted p i)

theorem idle_accepted {c : Erc20Peg.Cfg} {m : Nat} : ∀ (bs : List Nat) (p : Erc20Peg.St) (n k : Nat),
    (Erc20Peg.idleLoop c m bs p n k).1.accepted = p.accepted
  | [], _, _, _ => rfl
  | b :: bs, p, n, k => by
    unfold Erc20Peg.idleLoop
    dsimp only
    split
    · exact foldl_accepted _ _
    · exact (idle_accepted bs _ _ _).trans (foldl_accepted _ _)

/-! ## The NFT peg -/

structure NftTyped (n : NftPeg.St) : Prop where
  toEth : ∀ i a, n.toEth i = some a → a < 2 ^ 160
  blocked : ∀ i b, n.blocked i = some b → ∀ k ∈ b.serials, k < U32
  contract : n.contract < 2 ^ 160

theorem NftTyped.other {n n' : NftPeg.St} (h : NftTyped n) (e1 : n'.toEth = n.toEth) (e2 : n'.blocked = n.blocked)
    (e3 : n'.contract = n.contract) : NftTyped n' :=
  ⟨by rw [e1]; exact h.toEth, by rw [e2]; exact h.blocked, by rw [e3]; exact h.contract⟩

theorem coll_typed {c : NftPeg.Cfg} {n n' : NftPeg.St} {a id dest : Nat} (h : NftTyped n) (ha : a < 2 ^ 160)
    (he : NftPeg.collFor c n a dest = .ok (n', id)) : NftTyped n' := by
  unfold NftPeg.collFor at he
  split at he
  · cases he
    exact h
  · simp only [bind_ok, pure_ok] at he
    obtain ⟨i, _, m, _, e⟩ := he
    cases e
    refine ⟨?_, h.blocked, h.contract⟩
    intro j b hj
    dsimp only at hj
    rw [upd_apply] at hj
    split at hj
    · cases hj
      exact ha
    · exact h.toEth j b hj

theorem group_typed {c : NftPeg.Cfg} {n : NftPeg.St} {dest : Nat} {g : Nat × List Nat} (h : NftTyped n)
    (ha : g.1 < 2 ^ 160) (hk : ∀ k ∈ g.2, k < U32) : NftTyped (NftPeg.depositGroup c n dest g).1 := by
  unfold NftPeg.depositGroup
  split
  · exact h
  · rename_i n1 id hc
    have h1 := coll_typed h ha hc
    split
    · exact h1.other rfl rfl rfl
    · unfold NftPeg.block
      split
      · refine ⟨h1.toEth, ?_, h1.contract⟩
        intro i b hb
        dsimp only at hb
        rw [upd_apply] at hb
        split at hb
        · cases hb
          exact hk
        · exact h1.blocked i b hb
      · exact h1

theorem deposits_typed {c : NftPeg.Cfg} {dest : Nat} : ∀ (gs : List (Nat × List Nat)) {n : NftPeg.St}, NftTyped n →
    (∀ g ∈ gs, g.1 < 2 ^ 160 ∧ ∀ k ∈ g.2, k < U32) → NftTyped (NftPeg.doDeposit c dest n gs).1
  | [], _, h, _ => h
  | g :: gs, n, h, hg => by
    have h1 := group_typed (c := c) (dest := dest) h (hg g List.mem_cons_self).1 (hg g List.mem_cons_self).2
    unfold NftPeg.doDeposit
    split
    · rename_i n1 hn
      rw [hn] at h1
      exact deposits_typed gs h1 (fun x hx => hg x (List.mem_cons_of_mem _ hx))
    · exact h1

theorem serialOf_lt (n : Nat) : NftPeg.serialOf n < U32 := by
  unfold NftPeg.serialOf U32
  omega

theorem onEvent_typed {c : NftPeg.Cfg} {n : NftPeg.St} {e : NftPeg.Event} (h : NftTyped n)
    (ha : ∀ as ids d, e = .deposit (some (as, ids, d)) → ∀ a ∈ as, a < 2 ^ 160) :
    NftTyped (NftPeg.onEvent c n e).1 := by
  unfold NftPeg.onEvent
  split
  · exact h
  · exact h
  · rename_i as ids d
    split
    · exact h
    · rename_i gs hgs
      refine deposits_typed gs h ?_
      simp only [NftPeg.decode, bind_ok, ensure_ok, pure_ok] at hgs
      obtain ⟨_, _, _, _, _, _, _, _, rfl⟩ := hgs
      intro g hg
      obtain ⟨g1, g2⟩ := g
      have hm := List.of_mem_zip hg
      refine ⟨ha as ids d rfl g1 hm.1, ?_⟩
      obtain ⟨l, _, rfl⟩ := List.mem_map.mp hm.2
      intro k hk
      obtain ⟨j, _, rfl⟩ := List.mem_map.mp hk
      exact serialOf_lt j
  · exact h
  · exact h

theorem withdrawColl_typed {n n' : NftPeg.St} {who id a : Nat} {b : Option Nat} {ns out : List Nat} (h : NftTyped n)
    (hns : ∀ k ∈ ns, k < U32) (he : NftPeg.withdrawColl n who b id ns = .ok (n', a, out)) :
    NftTyped n' ∧ n'.contract = n.contract ∧ a < 2 ^ 160 ∧ ∀ k ∈ out, k < U32 := by
  cases b with
  | none =>
    simp only [NftPeg.withdrawColl, bind_ok, ensure_ok, okOr_ok, pure_ok] at he
    obtain ⟨k, _, _, _, x, h1, a', ha, e⟩ := he
    cases hb : NftPeg.burnAll who id n.nft ns with
    | error e =>
      rw [hb] at h1
      cases h1
    | ok m =>
      rw [hb] at h1
      cases h1
      cases e
      have h2 : NftTyped { n with nft := m } := h.other rfl rfl rfl
      exact ⟨h2, rfl, h2.toEth _ _ ha, hns⟩
  | some b =>
    simp only [NftPeg.withdrawColl, NftPeg.takeBlocked, bind_ok, ensure_ok, okOr_ok, pure_ok] at he
    obtain ⟨k, _, _, _, x, ⟨r, hr, h1⟩, a', ha, e⟩ := he
    subst h1
    cases e
    refine ⟨⟨h.toEth, ?_, h.contract⟩, rfl, h.toEth _ _ ha, h.blocked b r hr⟩
    intro i x hx
    dsimp only at hx
    rw [upd_apply] at hx
    split at hx
    · cases hx
    · exact h.blocked i x hx

theorem withdrawLoop_typed {who : Nat} {b : Option Nat} : ∀ (l : List (Nat × List Nat)) {n n' : NftPeg.St}
    {gs : List (Nat × List Nat)}, NftTyped n → (∀ x ∈ l, ∀ k ∈ x.2, k < U32) →
    NftPeg.withdrawLoop who b n l = .ok (n', gs) →
    NftTyped n' ∧ n'.contract = n.contract ∧ ∀ g ∈ gs, g.1 < 2 ^ 160 ∧ ∀ k ∈ g.2, k < U32
  | [], _, _, _, h, _, he => by
    cases he
    exact ⟨h, rfl, fun _ hg => by cases hg⟩
  | (id, ns) :: l, n, n', gs, h, hl, he => by
    simp only [NftPeg.withdrawLoop, bind_ok, pure_ok] at he
    obtain ⟨⟨n1, g⟩, h1, ⟨n2, gs'⟩, h2, e⟩ := he
    cases e
    obtain ⟨g1, g2⟩ := g
    obtain ⟨t1, t2, t3, t4⟩ := withdrawColl_typed h (hl (id, ns) List.mem_cons_self) h1
    obtain ⟨t5, t6, t7⟩ := withdrawLoop_typed l t1 (fun x hx => hl x (List.mem_cons_of_mem _ hx)) h2
    refine ⟨t5, t6.trans t2, ?_⟩
    intro x hx
    rcases List.mem_cons.mp hx with rfl | hx
    · exact ⟨t3, t4⟩
    · exact t7 x hx

theorem doWithdrawal_typed {n n' : NftPeg.St} {who dest : Nat} {colls : List Nat} {serials : List (List Nat)}
    {b : Option Nat} {ok : Bool} {m : NftPeg.Msg} (h : NftTyped n) (hs : ∀ l ∈ serials, ∀ k ∈ l, k < U32)
    (hd : dest < 2 ^ 160) (he : NftPeg.doWithdrawal n who colls serials dest b ok = .ok (n', m)) :
    NftTyped n' ∧ MsgFits m ∧ m.dest = dest := by
  simp only [NftPeg.doWithdrawal, bind_ok, ensure_ok, pure_ok] at he
  obtain ⟨_, _, ⟨n1, gs⟩, h1, _, _, e⟩ := he
  cases e
  obtain ⟨t1, t2, t3⟩ := withdrawLoop_typed _ h (fun x hx => hs x.2 (List.of_mem_zip (a := x.1) (b := x.2) hx).2) h1
  exact ⟨t1, ⟨by rw [t2]; exact h.contract, fun g hg => (t3 g hg).1, fun g hg => (t3 g hg).2, hd⟩, rfl⟩

end Verif.Outbound
