import Verif.Crowdsale.Share

/-!
# The invariant
-/

namespace Verif.Crowdsale

/-- Vouchers still owed by a sale. -/
def owed (s : St) (id : Nat) (i : Sale) (m : Nat) : Nat :=
  ((s.keys id).map (fun w => share i.price i.raised m (s.contrib id w))).sum

/-- What holds in each stage of a sale. -/
def Phase (c : Cfg) (s : St) (id : Nat) (i : Sale) (m : Nat) : Prop :=
  match i.status with
  | .pending _ => s.keys id = [] ∧ i.raised = 0 ∧ m * unit ≤ s.ledger.bal i.voucher (c.vault id) ∧ id ∉ s.queue
  | .enabled _ => i.raised ≤ s.ledger.bal i.pay (c.vault id) ∧
      m * unit ≤ s.ledger.bal i.voucher (c.vault id) ∧ id ∉ s.queue
  | .failed _ => i.raised ≠ 0 ∧
      (i.raised * unit < U128 → owed s id i m ≤ s.ledger.bal i.voucher (c.vault id)) ∧ id ∉ s.queue
  | .distributing _ _ => i.raised ≠ 0 ∧
      (i.raised * unit < U128 → owed s id i m ≤ s.ledger.bal i.voucher (c.vault id)) ∧ id ∈ s.queue
  | .ended _ => s.keys id = [] ∧ id ∉ s.queue

structure SaleInv (c : Cfg) (s : St) (id : Nat) (i : Sale) (k : Coll) (m : Nat) : Prop where
  vault : i.vault = c.vault id
  admin : ∀ j, i.admin ≠ c.vault j
  lt : id < s.next
  price : 0 < i.price
  issuer : s.issuer i.voucher = some (c.vault id)
  pay : i.pay ≠ i.voucher
  coll : s.colls i.coll = some k
  owner : k.owner = c.vault id
  pub : k.pub = false
  max : k.max = some m
  fits : m * unit < U128
  issued : k.issued ≤ k.next
  supply : s.ledger.iss i.voucher + unit * redeemed id s.events = unit * m
  nodup : (s.keys id).Nodup
  human : ∀ w, w ∈ s.keys id → w ≠ c.vault id
  inKeys : ∀ w, w ∈ s.keys id → s.contrib id w = put id w s.events ∧ 0 < put id w s.events ∧ got id w s.events = []
  outKeys : ∀ w, w ∉ s.keys id → s.contrib id w = 0 ∧ ((put id w s.events = 0 ∧ got id w s.events = []) ∨
    ((i.paying ∨ i.isOver) ∧ 0 < put id w s.events ∧
      got id w s.events = [share i.price i.raised m (put id w s.events)]))
  total : TotalIs (fun w => put id w s.events) i.raised
  raisedLt : i.raised < U128
  phase : Phase c s id i m

structure Inv (c : Cfg) (s : St) : Prop where
  sound : s.ledger.Sound
  fresh : ∀ a, s.issuer a = none → s.ledger.iss a = 0
  nodupQ : s.queue.Nodup
  sales : ∀ id i, s.sale id = some i → ∃ k m, SaleInv c s id i k m
  blank : ∀ id, s.next ≤ id → s.sale id = none ∧ s.keys id = [] ∧ (∀ w, s.contrib id w = 0) ∧
    (∀ e ∈ s.events, e.about ≠ id) ∧ id ∉ s.queue

theorem Inv.init {c : Cfg} {s : St} (h : Genesis s) : Inv c s where
  sound := h.sound
  fresh := h.fresh
  nodupQ := by rw [h.queue]; exact List.nodup_nil
  sales id i hi := by rw [h.sale id] at hi; cases hi
  blank id _ := ⟨h.sale id, h.keys id, h.contrib id, by rw [h.events]; simp, by rw [h.queue]; simp⟩

/-- Operations that leave the sale alone keep its invariant. -/
theorem SaleInv.quiet {c : Cfg} {s s' : St} {id : Nat} {i : Sale} {k : Coll} {m : Nat}
    (H : SaleInv c s id i k m) (q : Quiet c id s s') :
    ∃ n, SaleInv c s' id i { k with issued := n } m := by
  obtain ⟨n, hk, hn⟩ := q.colls _ _ H.coll H.owner H.pub
  refine ⟨n, {
    vault := H.vault
    admin := H.admin
    lt := lt_of_lt_of_le H.lt q.next
    price := H.price
    issuer := q.issuer _ _ H.issuer
    pay := H.pay
    coll := hk
    owner := H.owner
    pub := H.pub
    max := H.max
    fits := H.fits
    issued := le_trans hn H.issued
    supply := ?_
    nodup := ?_
    human := ?_
    inKeys := ?_
    outKeys := ?_
    total := ?_
    raisedLt := H.raisedLt
    phase := ?_ }⟩
  · rw [q.iss _ H.issuer, q.redeemed]; exact H.supply
  · rw [q.keys]; exact H.nodup
  · rw [q.keys]; exact H.human
  · intro w hw; rw [q.keys] at hw; rw [q.contrib, q.put, q.got]; exact H.inKeys w hw
  · intro w hw; rw [q.keys] at hw; rw [q.contrib, q.put, q.got]; exact H.outKeys w hw
  · have e : (fun w => Crowdsale.put id w s'.events) = (fun w => Crowdsale.put id w s.events) := by
      funext w; exact q.put w
    rw [e]; exact H.total
  · have hp := H.phase
    have b1 := q.bal i.voucher
    have b2 := q.bal i.pay
    have eo : owed s' id i m = owed s id i m := by unfold owed; rw [q.keys, q.contrib]
    unfold Phase at hp ⊢
    rw [q.keys, q.queue, eo]
    cases hst : i.status <;> simp only [hst] at hp ⊢
    · exact ⟨hp.1, hp.2.1, le_trans hp.2.2.1 b1, hp.2.2.2⟩
    · exact ⟨le_trans hp.1 b2, le_trans hp.2.1 b1, hp.2.2⟩
    · exact ⟨hp.1, fun h => le_trans (hp.2.1 h) b1, hp.2.2⟩
    · exact hp
    · exact ⟨hp.1, fun h => le_trans (hp.2.1 h) b1, hp.2.2⟩

/-- The invariant reads the log only through contributions, payments and redemptions. -/
theorem SaleInv.events {c : Cfg} {s : St} {id : Nat} {i : Sale} {k : Coll} {m : Nat} {es : List Ev}
    (H : SaleInv c s id i k m) (hp : ∀ w, put id w es = put id w s.events)
    (hg : ∀ w, got id w es = got id w s.events) (hr : redeemed id es = redeemed id s.events) :
    SaleInv c { s with events := es } id i k m :=
  { H with
    supply := by simp only [hr]; exact H.supply
    inKeys := fun w hw => by simp only [hp, hg]; exact H.inKeys w hw
    outKeys := fun w hw => by simp only [hp, hg]; exact H.outKeys w hw
    total := by
      have e : (fun w => put id w es) = (fun w => put id w s.events) := by funext w; exact hp w
      simp only [e]; exact H.total
    phase := H.phase }

/-- Operations about one sale: the invariant carries over once that sale is dealt with. -/
theorem Inv.target {c : Cfg} {s s' : St} {id : Nat} (H : Inv c s) (hs : s'.ledger.Sound)
    (hf : ∀ a, s'.issuer a = none → s'.ledger.iss a = 0) (hn : s'.next = s.next) (hl : id < s.next)
    (hq : s'.queue.Nodup) (q : ∀ j, j ≠ id → Quiet c j s s')
    (ht : ∀ i, s'.sale id = some i → ∃ k m, SaleInv c s' id i k m) : Inv c s' where
  sound := hs
  fresh := hf
  nodupQ := hq
  sales j i hi := by
    by_cases e : j = id
    · subst e; exact ht i hi
    · rw [(q j e).sale] at hi
      obtain ⟨k, m, hk⟩ := H.sales j i hi
      obtain ⟨n, h⟩ := hk.quiet (q j e)
      exact ⟨_, _, h⟩
  blank j hj := by
    rw [hn] at hj
    have e : j ≠ id := by omega
    obtain ⟨h1, h2, h3, h4, h5⟩ := H.blank j hj
    have qj := q j e
    obtain ⟨es, he, hne⟩ := qj.events
    refine ⟨by rw [qj.sale]; exact h1, by rw [qj.keys]; exact h2, by rw [qj.contrib]; exact h3, ?_,
      by rw [qj.queue]; exact h5⟩
    rw [he]
    intro e' he'
    rcases List.mem_append.mp he' with h | h
    · exact hne e' h
    · exact h4 e' h

/-- Operations that touch no sale. -/
theorem Inv.all {c : Cfg} {s s' : St} (H : Inv c s) (hs : s'.ledger.Sound)
    (hf : ∀ a, s'.issuer a = none → s'.ledger.iss a = 0) (hn : s'.next = s.next)
    (hq : s'.queue.Nodup) (q : ∀ j, Quiet c j s s') : Inv c s' where
  sound := hs
  fresh := hf
  nodupQ := hq
  sales j i hi := by
    rw [(q j).sale] at hi
    obtain ⟨k, m, hk⟩ := H.sales j i hi
    obtain ⟨n, h⟩ := hk.quiet (q j)
    exact ⟨_, _, h⟩
  blank j hj := by
    rw [hn] at hj
    obtain ⟨h1, h2, h3, h4, h5⟩ := H.blank j hj
    have qj := q j
    obtain ⟨es, he, hne⟩ := qj.events
    refine ⟨by rw [qj.sale]; exact h1, by rw [qj.keys]; exact h2, by rw [qj.contrib]; exact h3, ?_,
      by rw [qj.queue]; exact h5⟩
    rw [he]
    intro e' he'
    rcases List.mem_append.mp he' with h | h
    · exact hne e' h
    · exact h4 e' h

/-! ## Keys -/

theorem mem_insertKey {rank : Acct → Nat} {w x : Acct} : ∀ {l : List Acct},
    x ∈ insertKey rank w l ↔ x = w ∨ x ∈ l
  | [] => by simp [insertKey]
  | k :: ks => by
    unfold insertKey
    split
    · simp
    · simp only [List.mem_cons, mem_insertKey (l := ks)]
      tauto

theorem nodup_insertKey {rank : Acct → Nat} {w : Acct} : ∀ {l : List Acct}, l.Nodup → w ∉ l →
    (insertKey rank w l).Nodup
  | [], _, _ => by simp [insertKey]
  | k :: ks, h, hw => by
    unfold insertKey
    split
    · exact List.nodup_cons.mpr ⟨hw, h⟩
    · obtain ⟨h1, h2⟩ := List.nodup_cons.mp h
      simp only [List.mem_cons, not_or] at hw
      refine List.nodup_cons.mpr ⟨?_, nodup_insertKey h2 hw.2⟩
      rw [mem_insertKey]
      rintro (rfl | h3)
      · exact hw.1 rfl
      · exact h1 h3

/-- A duplicate-free list adds up to at most the total. -/
theorem sum_le_total {f : Acct → Nat} {n : Nat} (h : TotalIs f n) {l : List Acct} (hl : l.Nodup) :
    (l.map f).sum ≤ n := by
  obtain ⟨S, hS, rfl⟩ := h
  have e : (l.map f).sum = l.toFinset.sum f := (List.sum_toFinset f hl).symm
  rw [e]
  have e2 : l.toFinset.sum f = (l.toFinset ∩ S).sum f := by
    symm
    apply Finset.sum_subset Finset.inter_subset_left
    intro x hx hn
    apply hS
    intro hs
    exact hn (Finset.mem_inter.mpr ⟨hx, hs⟩)
  rw [e2]
  exact Finset.sum_le_sum_of_subset Finset.inter_subset_right

end Verif.Crowdsale
