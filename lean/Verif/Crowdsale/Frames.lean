import Verif.Crowdsale.Spec

/-!
# What an operation leaves alone

`Quiet c j s s'`: going from `s` to `s'` does not touch sale `j`, except that its vault may have
received something.
-/

namespace Verif.Crowdsale

structure Quiet (c : Cfg) (j : Nat) (s s' : St) : Prop where
  sale : s'.sale j = s.sale j
  keys : s'.keys j = s.keys j
  contrib : s'.contrib j = s.contrib j
  bal : ∀ a, s.ledger.bal a (c.vault j) ≤ s'.ledger.bal a (c.vault j)
  iss : ∀ a, s.issuer a = some (c.vault j) → s'.ledger.iss a = s.ledger.iss a
  issuer : ∀ a o, s.issuer a = some o → s'.issuer a = some o
  colls : ∀ x k, s.colls x = some k → k.owner = c.vault j → k.pub = false →
    ∃ n, s'.colls x = some { k with issued := n } ∧ n ≤ k.issued
  events : ∃ es, s'.events = es ++ s.events ∧ ∀ e ∈ es, e.about ≠ j
  queue : j ∈ s'.queue ↔ j ∈ s.queue
  next : s.next ≤ s'.next

theorem Quiet.refl (c : Cfg) (j : Nat) (s : St) : Quiet c j s s where
  sale := rfl
  keys := rfl
  contrib := rfl
  bal _ := le_refl _
  iss _ _ := rfl
  issuer _ _ h := h
  colls _ k h _ _ := ⟨k.issued, h, le_refl _⟩
  events := ⟨[], rfl, by simp⟩
  queue := Iff.rfl
  next := le_refl _

theorem Quiet.trans {c : Cfg} {j : Nat} {s s1 s2 : St} (h : Quiet c j s s1) (g : Quiet c j s1 s2) :
    Quiet c j s s2 where
  sale := g.sale.trans h.sale
  keys := g.keys.trans h.keys
  contrib := g.contrib.trans h.contrib
  bal a := le_trans (h.bal a) (g.bal a)
  iss a ha := (g.iss a (h.issuer a _ ha)).trans (h.iss a ha)
  issuer a o ha := g.issuer a o (h.issuer a o ha)
  colls x k hk ho hp := by
    obtain ⟨n, h1, h2⟩ := h.colls x k hk ho hp
    obtain ⟨n2, h3, h4⟩ := g.colls x _ h1 ho hp
    exact ⟨n2, h3, le_trans h4 h2⟩
  events := by
    obtain ⟨es, h1, h2⟩ := h.events
    obtain ⟨fs, h3, h4⟩ := g.events
    refine ⟨fs ++ es, by rw [h3, h1, List.append_assoc], ?_⟩
    intro e he
    rcases List.mem_append.mp he with h | h
    · exact h4 e h
    · exact h2 e h
  queue := g.queue.trans h.queue
  next := le_trans h.next g.next

theorem put_append (id : Nat) (w : Acct) : ∀ (es fs : List Ev), (∀ e ∈ es, e.about ≠ id) →
    put id w (es ++ fs) = put id w fs
  | [], _, _ => rfl
  | e :: es, fs, h => by
    have ih := put_append id w es fs (fun e' he' => h e' (List.mem_cons_of_mem _ he'))
    have h0 := h e (List.mem_cons_self ..)
    cases e <;> simp only [List.cons_append, put, ih]
    simp only [Ev.about] at h0
    simp [h0]

theorem got_append (id : Nat) (w : Acct) : ∀ (es fs : List Ev), (∀ e ∈ es, e.about ≠ id) →
    got id w (es ++ fs) = got id w fs
  | [], _, _ => rfl
  | e :: es, fs, h => by
    have ih := got_append id w es fs (fun e' he' => h e' (List.mem_cons_of_mem _ he'))
    have h0 := h e (List.mem_cons_self ..)
    cases e <;> simp only [List.cons_append, got, ih]
    simp only [Ev.about] at h0
    simp [h0]

theorem redeemed_append (id : Nat) : ∀ (es fs : List Ev), (∀ e ∈ es, e.about ≠ id) →
    redeemed id (es ++ fs) = redeemed id fs
  | [], _, _ => rfl
  | e :: es, fs, h => by
    have ih := redeemed_append id es fs (fun e' he' => h e' (List.mem_cons_of_mem _ he'))
    have h0 := h e (List.mem_cons_self ..)
    cases e <;> simp only [List.cons_append, redeemed, ih]
    simp only [Ev.about] at h0
    simp [h0]

theorem put_nil {id : Nat} {w : Acct} {es : List Ev} (h : ∀ e ∈ es, e.about ≠ id) : put id w es = 0 := by
  have := put_append id w es [] h; simpa [put] using this

theorem got_nil {id : Nat} {w : Acct} {es : List Ev} (h : ∀ e ∈ es, e.about ≠ id) : got id w es = [] := by
  have := got_append id w es [] h; simpa [got] using this

theorem redeemed_nil {id : Nat} {es : List Ev} (h : ∀ e ∈ es, e.about ≠ id) : redeemed id es = 0 := by
  have := redeemed_append id es [] h; simpa [redeemed] using this

theorem Quiet.put {c : Cfg} {j : Nat} {s s' : St} (h : Quiet c j s s') (w : Acct) :
    put j w s'.events = put j w s.events := by
  obtain ⟨es, h1, h2⟩ := h.events; rw [h1, put_append j w es _ h2]

theorem Quiet.got {c : Cfg} {j : Nat} {s s' : St} (h : Quiet c j s s') (w : Acct) :
    got j w s'.events = got j w s.events := by
  obtain ⟨es, h1, h2⟩ := h.events; rw [h1, got_append j w es _ h2]

theorem Quiet.redeemed {c : Cfg} {j : Nat} {s s' : St} (h : Quiet c j s s') :
    redeemed j s'.events = redeemed j s.events := by
  obtain ⟨es, h1, h2⟩ := h.events; rw [h1, redeemed_append j es _ h2]

/-- Only the ledger changes, and nothing leaves the vault. -/
theorem Quiet.ledger {c : Cfg} {j : Nat} {s : St} {L : Ledger}
    (hb : ∀ a, s.ledger.bal a (c.vault j) ≤ L.bal a (c.vault j))
    (hi : ∀ a, s.issuer a = some (c.vault j) → L.iss a = s.ledger.iss a) :
    Quiet c j s { s with ledger := L } where
  sale := rfl
  keys := rfl
  contrib := rfl
  bal := hb
  iss := hi
  issuer _ _ h := h
  colls _ k h _ _ := ⟨k.issued, h, le_refl _⟩
  events := ⟨[], rfl, by simp⟩
  queue := Iff.rfl
  next := le_refl _

theorem transfer_keeps {L L' : Ledger} {a : AssetId} {x y : Acct} {n : Nat} (h : L.transfer a x y n = .ok L')
    {v : Acct} (hv : x ≠ v) (b : AssetId) : L.bal b v ≤ L'.bal b v := by
  obtain ⟨_, _, h3, h4⟩ := Ledger.transfer_ok h
  by_cases e : b = a
  · subst e
    have := h4 v
    rw [if_neg (Ne.symm hv)] at this
    omega
  · rw [h3 b e]

theorem transfer_self_keeps {L L' : Ledger} {a : AssetId} {x y : Acct} {n : Nat} (h : L.transfer a x y n = .ok L')
    {v : Acct} {b : AssetId} (hv : b ≠ a) : L'.bal b v = L.bal b v := by
  obtain ⟨_, _, h3, _⟩ := Ledger.transfer_ok h
  rw [h3 b hv]

theorem transfer_iss {L L' : Ledger} {a : AssetId} {x y : Acct} {n : Nat} (h : L.transfer a x y n = .ok L') :
    L'.iss = L.iss := (Ledger.transfer_ok h).2.1

end Verif.Crowdsale
