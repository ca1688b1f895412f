import Verif.EvmMoney.Reissue

namespace Verif.EvmMoney
open Verif.Dex (sat128 poolAddr mkPair Keyed)

/-! ### the invariant -/

/-- The exchange's books are in order once the `n` outstanding drops are settled; XRP exists. -/
structure Books (c : Cfg) (s : St) (n : Nat) : Prop where
  dex : Dex.Inv (re c.xrp (s.dex.led.iss c.xrp - n) s.dex)
  le : n ≤ s.dex.led.iss c.xrp
  lt : s.dex.led.iss c.xrp < U128
  own : ∃ o, s.dex.owner c.xrp = some o ∧ ∀ p, o ≠ poolAddr p

theorem re_self (a : AssetId) (s : Dex.St) : re a (s.led.iss a) s = s := by
  unfold re reL
  have : upd s.led.iss a (s.led.iss a) = s.led.iss := by
    funext b; simp only [upd_apply]; split
    · rename_i h; rw [h]
    · rfl
  rw [this]

theorem books_zero {c : Cfg} {s : St} : Books c s 0 ↔
    Dex.Inv s.dex ∧ ∃ o, s.dex.owner c.xrp = some o ∧ ∀ p, o ≠ poolAddr p := by
  constructor
  · intro h
    have := h.dex
    rw [Nat.sub_zero, re_self] at this
    exact ⟨this, h.own⟩
  · rintro ⟨h, ho⟩
    refine ⟨?_, Nat.zero_le _, (h.sound c.xrp).2, ho⟩
    rw [Nat.sub_zero, re_self]; exact h

theorem Books.owes {c : Cfg} {s : St} {n : Nat} (h : Books c s n) : Owes s.dex.led c.xrp n := by
  have hs := h.dex.sound
  refine ⟨⟨s.dex.led.iss c.xrp - n, ?_, ?_⟩, h.lt, fun b hb => ?_⟩
  · have := (hs c.xrp).1
    have e : (re c.xrp (s.dex.led.iss c.xrp - n) s.dex).led.iss c.xrp = s.dex.led.iss c.xrp - n := upd_same _ _ _
    rw [e] at this
    exact this
  · have := h.le; omega
  · have := hs b
    have e : (re c.xrp (s.dex.led.iss c.xrp - n) s.dex).led.iss b = s.dex.led.iss b := upd_ne _ _ hb
    rw [e] at this
    exact this

theorem Books.notLp {c : Cfg} {s : St} {n : Nat} (h : Books c s n) (p : Dex.Pair) : s.dex.lp p ≠ some c.xrp := by
  intro e
  obtain ⟨o, ho, hne⟩ := h.own
  have : s.dex.owner c.xrp = some (poolAddr p) := h.dex.lpOwn p c.xrp e
  rw [ho] at this
  exact hne p (Option.some.inj this)

theorem Books.mid {c : Cfg} {s : St} {n : Nat} (h : Books c s n) : Mid c s.dex s.dex.led n :=
  ⟨h.owes, fun _ => Nat.le_refl _, fun _ _ _ => Nat.le_refl _⟩

theorem Books.change {c : Cfg} {s : St} {n n' : Nat} {L : Ledger} (h : Books c s n)
    (hm : Mid c s.dex L n') : Books c (s.withLed L) n' := by
  obtain ⟨⟨m, h1, h2⟩, h3, h4⟩ := hm.owes
  refine ⟨?_, show n' ≤ L.iss c.xrp by omega, h3, h.own⟩
  have e : re c.xrp ((s.withLed L).dex.led.iss c.xrp - n') (s.withLed L).dex =
      { re c.xrp (s.dex.led.iss c.xrp - n) s.dex with led := reL c.xrp m L } := by
    show re c.xrp (L.iss c.xrp - n') { s.dex with led := L } = _
    have : L.iss c.xrp - n' = m := by omega
    rw [this]
    rfl
  rw [e]
  refine h.dex.led_change ?_ ?_ ?_ ?_
  · intro b
    by_cases hb : b = c.xrp
    · subst hb
      have e : (reL c.xrp m L).iss c.xrp = m := upd_same _ _ _
      rw [e]
      exact ⟨h1, by omega⟩
    · have e : (reL c.xrp m L).iss b = L.iss b := upd_ne _ _ hb
      rw [e]
      exact h4 b hb
  · intro a ha
    have ha' : s.dex.owner a = none := ha
    have hne : a ≠ c.xrp := by
      rintro rfl
      obtain ⟨o, ho, _⟩ := h.own
      rw [ho] at ha'; cases ha'
    have e : (reL c.xrp m L).iss a = L.iss a := upd_ne _ _ hne
    have e2 : (re c.xrp (s.dex.led.iss c.xrp - n) s.dex).led.iss a = s.dex.led.iss a := upd_ne _ _ hne
    have h5 := h.dex.fresh a ha
    have h6 := hm.iss a
    rw [e]
    omega
  · exact fun a p => hm.keep a _ (.inr (.inl ⟨p, rfl⟩))
  · exact fun a => hm.keep a _ (.inl rfl)

/-- A swap by an ordinary account, made while `n` drops are outstanding. -/
theorem Books.swap {c : Cfg} {s : St} {n : Nat} {d : Dex.St} {who : Acct} {i mn : Nat} {path : List AssetId}
    {dl : Option Nat} (h : Books c s n) (hw : Keyed who)
    (hs : Dex.swapExactSupply c.dex s.dex who i mn path who dl = .ok d) :
    Books c { s with dex := d } n ∧ d.led.iss c.xrp = s.dex.led.iss c.xrp := by
  have hi : d.led.iss c.xrp = s.dex.led.iss c.xrp := by
    have h1 := swapSupply_re (a := c.xrp) (m := s.dex.led.iss c.xrp) h.notLp hs
    rw [re_self, hs] at h1
    injection h1 with h1
    have := congrArg (fun t => t.led.iss c.xrp) h1
    simpa [re, reL] using this
  refine ⟨⟨?_, by rw [hi]; exact h.le, by rw [hi]; exact h.lt, ?_⟩, hi⟩
  · have h1 := swapSupply_re (a := c.xrp) (m := s.dex.led.iss c.xrp - n) h.notLp hs
    rw [hi]
    exact h.dex.step (op := .swapSupply who i mn path who dl) (fun w e => by cases e; exact hw) h1
  · obtain ⟨o, ho, hne⟩ := h.own
    exact ⟨o, dex_owner (op := .swapSupply who i mn path who dl) hs ho, hne⟩

/-- The pot covers every fee counted so far. -/
def Covered (c : Cfg) (s : St) : Prop := s.era + s.ended ≤ s.xrp c c.pot

/-- Twice the XRP supply fits 128 bits. (There are `10^17` drops.) -/
def Small (c : Cfg) (s : St) : Prop := s.dex.led.iss c.xrp * 2 < U128

/-- What a transaction may do to the books, with `n` drops outstanding before and after. -/
structure Kept (c : Cfg) (s s' : St) (n : Nat) : Prop where
  books : Books c s' n
  ended : s'.ended = s.ended
  dele : s'.dele = s.dele
  iss : s'.dex.led.iss c.xrp ≤ s.dex.led.iss c.xrp
  pot : Small c s → Covered c s → Covered c s'

theorem Kept.trans {c : Cfg} {s t u : St} {n m : Nat} (h1 : Kept c s t n) (h2 : Kept c t u m) : Kept c s u m :=
  ⟨h2.books, h2.ended.trans h1.ended, h2.dele.trans h1.dele, Nat.le_trans h2.iss h1.iss,
    fun hs hc => h2.pot (by unfold Small at *; have := h1.iss; omega) (h1.pot hs hc)⟩

/-- A step that only changes the ledger. -/
theorem Kept.ledger {c : Cfg} {s : St} {n n' : Nat} {L : Ledger} (h : Books c s n)
    (hm : Mid c s.dex L n') : Kept c s (s.withLed L) n' :=
  ⟨h.change hm, rfl, rfl, hm.iss c.xrp, fun _ hc => Nat.le_trans hc (hm.keep c.xrp c.pot (.inr (.inr rfl)))⟩

/-- Fees paid into the pot. -/
theorem Kept.pot' {c : Cfg} {s : St} {n v : Nat} (h : Books c s n) (hv : v ≤ n) :
    Kept c s { s.withLed (potReceive c s.dex.led s.era v).1 with era := (potReceive c s.dex.led s.era v).2 } (n - v) := by
  have hm := h.mid.pot (era := s.era) hv
  have hb := h.change hm
  refine ⟨⟨hb.dex, hb.le, hb.lt, hb.own⟩, rfl, rfl, hm.iss c.xrp, ?_⟩
  intro hs hc
  obtain ⟨h1, h2, h3⟩ := pot_exact (era := s.era) h.mid hv hs
  have h4 := h1 c.pot
  rw [if_pos rfl] at h4
  obtain ⟨⟨m, h5, h6⟩, h7, _⟩ := hm.owes
  have h8 := h5.le c.pot
  rw [h4] at h8
  rw [h2] at h6
  have hlt := h.lt
  unfold Covered St.xrp at *
  show (potReceive c s.dex.led s.era v).2 + s.ended ≤ (potReceive c s.dex.led s.era v).1.bal c.xrp c.pot
  rw [h3 (by omega), h4]
  omega

theorem swapped_kept {c : Cfg} {s s1 : St} {t : EvmTx} {n : Nat} (hp : PotOk c) (h : Books c s n)
    (hw : Keyed t.who ∧ t.who ≠ c.pot) (hs : Swapped c s t s1) : Kept c s s1 n ∧ s1.era = s.era := by
  unfold Swapped at hs
  split at hs
  · subst hs; exact ⟨⟨h, rfl, rfl, Nat.le_refl _, fun _ hc => hc⟩, rfl⟩
  · obtain ⟨_, _, amts, d, _, _, h3, rfl⟩ := prefSwap_ok hs
    obtain ⟨h4, h5⟩ := h.swap hw.1 h3
    refine ⟨⟨h4, rfl, rfl, Nat.le_of_eq h5, fun _ hc => ?_⟩, rfl⟩
    refine Nat.le_trans hc ?_
    exact dex_mono (op := .swapSupply t.who _ _ _ t.who none) h3
      (fun e => hw.2 (Option.some.inj e)) hp.2 c.xrp

/-- An EVM transaction, possibly inside another transaction whose fee `n` is outstanding. -/
theorem evmTx_kept {c : Cfg} {s s' : St} {t : EvmTx} {n : Nat} (hp : PotOk c) (h : Books c s n)
    (hw : ∀ w ∈ t.sources, Keyed w ∧ w ≠ c.pot) (hs : evmTx c s t = .ok s') : Kept c s s' n := by
  obtain ⟨s1, h1, h2⟩ := evmTx_ok hs
  have hwho := hw t.who List.mem_cons_self
  obtain ⟨k1, _⟩ := swapped_kept hp h hwho h1
  have body : ∀ {L L' : Ledger} {k : Nat}, Mid c s1.dex L k → evmBody c L t.pays t.reverts = .ok L' →
      Mid c s1.dex L' k := by
    intro L L' k hm hb
    refine evmBody_ind (fun L => Mid c s1.dex L k) ?_ hm hb
    intro p hp L1 L2 v hL ht
    refine hL.transfer (not_held (hw p.1 ?_)) ht
    exact List.mem_cons_of_mem _ (List.mem_map_of_mem hp)
  rcases h2 with ⟨_, L2, hb, rfl⟩ | ⟨v, L1, L2, L3, era, tip, L4, _, _, hd, hb, hc, ht, rfl⟩
  · exact k1.trans (Kept.ledger k1.books (body k1.books.mid hb))
  · have m2 : Mid c s1.dex L2 (n + v) := body (k1.books.mid.debit (not_held hwho) hd) hb
    obtain ⟨r6, base6, _, _, _, _, hle, e, rfl⟩ := correctFee_ok hc
    have m3 := m2.credit (w := t.who) (v := r6) (by omega)
    have k2 := k1.trans (Kept.ledger k1.books m3)
    have hv : min (v - (credit L2 c.xrp t.who r6).2) base6 ≤ n + v - (credit L2 c.xrp t.who r6).2 :=
      Nat.le_trans (Nat.min_le_left _ _) (by omega)
    have k3 := k2.trans (Kept.pot' k2.books hv)
    have e' : potReceive c (s1.withLed (credit L2 c.xrp t.who r6).1).dex.led
        (s1.withLed (credit L2 c.xrp t.who r6).1).era (min (v - (credit L2 c.xrp t.who r6).2) base6) = (L3, era) := e.symm
    rw [e'] at k3
    have e2 : n + v - (credit L2 c.xrp t.who r6).2 - min (v - (credit L2 c.xrp t.who r6).2) base6 =
        n + (v - (credit L2 c.xrp t.who r6).2 - min (v - (credit L2 c.xrp t.who r6).2) base6) := by omega
    rw [e2] at k3
    obtain ⟨_, e4⟩ := payTip_ok ht
    have m4 := k3.books.mid.depositDrop (w := t.author)
      (v := v - (credit L2 c.xrp t.who r6).2 - min (v - (credit L2 c.xrp t.who r6).2) base6) (Nat.le_add_left _ _)
    rw [Nat.add_sub_cancel] at m4
    have k4 := k3.trans (Kept.ledger k3.books m4)
    rw [e4]
    exact k4

theorem signed_kept {c : Cfg} {s s' : St} {t : Signed} (hp : PotOk c) (h : Books c s 0)
    (hw : ∀ w ∈ (Op.signed t).sources, Keyed w ∧ w ≠ c.pot) (hs : signed c s t = .ok s') : Kept c s s' 0 := by
  obtain ⟨s1, h1, h2⟩ := signed_ok hs
  have hpay := hw _ (payer_source (s := s))
  have hbody : ∀ w ∈ t.body.sources, Keyed w ∧ w ≠ c.pot := fun w hm =>
    hw w (List.mem_cons_of_mem _ (List.mem_append_right _ hm))
  have k1 : Kept c s s1 0 := by
    unfold SwappedS at h1
    split at h1
    · subst h1; exact ⟨h, rfl, rfl, Nat.le_refl _, fun _ hc => hc⟩
    · obtain ⟨_, d, _, h3, rfl⟩ := h1
      obtain ⟨hi, o, ho, hne⟩ := books_zero.mp h
      have hk : Dex.step c.dex s.dex (.swapTarget (payer s t) _ _ _ (payer s t) none) = .ok d := h3
      have hd := hi.step (fun w e => by cases e; exact hpay.1) hk
      have hb : Books c { s with dex := d } 0 := books_zero.mpr ⟨hd, o, dex_owner hk ho, hne⟩
      have hiss : d.led.iss c.xrp = s.dex.led.iss c.xrp := by
        obtain ⟨_, amts, _, _, _, hpp⟩ := Dex.swapExactTarget_ok h3
        have := Dex.payAndSwap_total hpp c.xrp h.notLp (hi.sound c.xrp).1
        exact (hd.sound c.xrp).1.unique this
      refine ⟨hb, rfl, rfl, Nat.le_of_eq hiss, fun _ hc => Nat.le_trans hc ?_⟩
      exact dex_mono hk (fun e => hpay.2 (Option.some.inj e)) hp.2 c.xrp
  have body : ∀ {u u' : St} {k : Nat}, Books c u k → dispatchBody c u t.body = .ok u' → Kept c u u' k := by
    intro u u' k hb hd
    rcases dispatchBody_ok hd with rfl | ⟨l, L, e, hl, rfl⟩ | ⟨x, e, hx⟩
    · exact ⟨hb, rfl, rfl, Nat.le_refl _, fun _ hc => hc⟩
    · refine Kept.ledger hb ?_
      refine dropTransfers_ind (fun L => Mid c u.dex L k) l _ _ ?_ hb.mid hl
      intro p hp L1 L2 v hL ht
      refine hL.transfer (not_held (hbody p.1 ?_)) ht
      rw [e]; exact List.mem_map_of_mem hp
    · exact evmTx_kept hp hb (by rw [e] at hbody; exact hbody) hx
  rcases h2 with ⟨_, hd⟩ | ⟨L, s2, h0, _, hd, hb, rfl⟩
  · exact k1.trans (body k1.books hd)
  · have m1 := k1.books.mid.debit (not_held hpay) hd
    rw [Nat.zero_add] at m1
    have k2 := k1.trans (Kept.ledger k1.books m1)
    have k3 := k2.trans (body k2.books hb)
    have hcr := (credit_spec s2.dex.led c.xrp t.who (t.fee - t.corrected)).2.2.2.1
    have m4 := k3.books.mid.credit (w := t.who) (v := t.fee - t.corrected) (by omega)
    have k4 := k3.trans (Kept.ledger k3.books m4)
    have k5 := k4.trans (Kept.pot' k4.books (Nat.le_refl _))
    rw [Nat.sub_self] at k5
    exact k5

theorem step_kept {c : Cfg} {s s' : St} {op : Op} (hp : PotOk c) (h : Books c s 0) (hw : Proper c op)
    (hs : step c s op = .ok s') : Books c s' 0 ∧ (Small c s → Covered c s → Covered c s') := by
  cases op with
  | evm t => have := evmTx_kept hp h hw hs; exact ⟨this.books, this.pot⟩
  | signed t => have := signed_kept hp h hw hs; exact ⟨this.books, this.pot⟩
  | exchange op =>
    simp only [step] at hs
    cases hd : Dex.step c.dex s.dex op with
    | error e => rw [hd] at hs; cases hs
    | ok d =>
      rw [hd] at hs
      cases hs
      obtain ⟨hi, o, ho, hne⟩ := books_zero.mp h
      have hsg : ∀ w, op.signer = some w → Keyed w ∧ w ≠ c.pot := fun w e => by
        apply hw; show w ∈ op.signer.toList; rw [e]; simp
      refine ⟨books_zero.mpr ⟨hi.step (fun w e => (hsg w e).1) hd, o, dex_owner hd ho, hne⟩, fun _ hc => ?_⟩
      exact Nat.le_trans hc (dex_mono hd (fun e => (hsg _ e).2 rfl) hp.2 c.xrp)
  | eraEnd =>
    cases hs
    refine ⟨⟨h.dex, h.le, h.lt, h.own⟩, fun _ hc => ?_⟩
    unfold Covered at *
    show 0 + (s.ended + s.era) ≤ s.xrp c c.pot
    omega
  | delegate f w b =>
    cases hs
    exact ⟨⟨h.dex, h.le, h.lt, h.own⟩, fun _ hc => hc⟩

theorem Reach.books {c : Cfg} {G : St → Prop} {s : St} (hp : PotOk c) (h : Reach c G s) : Books c s 0 := by
  induction h with
  | init h _ => exact books_zero.mpr ⟨Dex.inv_genesis h.dex, h.xrp⟩
  | step _ hw hs _ ih => exact (step_kept hp ih hw hs).1

theorem Reach.covered {c : Cfg} {s : St} (hp : PotOk c) (h : Reach c (Small c) s) : Covered c s ∧ Small c s := by
  induction h with
  | init h hg => exact ⟨by unfold Covered; rw [h.era, h.ended]; exact Nat.zero_le _, hg⟩
  | step hr hw hs hg ih => exact ⟨(step_kept hp (hr.books hp) hw hs).2 ih.2 ih.1, hg⟩

end Verif.EvmMoney
