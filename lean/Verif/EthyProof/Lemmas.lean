import Verif.EthyProof.Model

/-! # Helper lemmas for the outgoing side of the bridge -/

namespace Verif.EthyProof

/-- The bookkeeping invariant, as long as the counter has not wrapped. -/
structure PI (s : St) : Prop where
  next : s.nextId = s.taken % 2 ^ 64
  lt : s.taken ≤ 2 ^ 64 → ∀ i ∈ s.issued, i < s.taken
  dec : s.taken ≤ 2 ^ 64 → s.issued.Pairwise (· > ·)
  part : s.taken ≤ 2 ^ 64 → (s.sent.map Prod.fst ++ s.pending.map Prod.fst).Perm s.issued

theorem doRequest_taken (s : St) (id : Nat) (r : Req) :
    (doRequest s id r).taken = s.taken ∧ (doRequest s id r).nextId = s.nextId ∧
    (doRequest s id r).issued = s.issued ∧ (doRequest s id r).manual = s.manual ∧
    (doRequest s id r).change = s.change ∧ (doRequest s id r).setId = s.setId ∧
    (doRequest s id r).perBlock = s.perBlock := by
  unfold doRequest; split <;> exact ⟨rfl, rfl, rfl, rfl, rfl, rfl, rfl⟩

theorem doRequest_paused {s : St} {id : Nat} {r : Req} (h : paused s = true) :
    doRequest s id r = { s with pending := (id, r) :: s.pending.filter (fun p => p.1 ≠ id) } := by
  unfold doRequest; rw [if_pos h]

theorem doRequest_open {s : St} {id : Nat} {r : Req} (h : paused s = false) :
    doRequest s id r = { s with sent := (id, refresh s r) :: s.sent } := by
  unfold doRequest; rw [if_neg (by simp [h])]

theorem sendRaw_PI {c : Cfg} {s : St} {mk : Req} {len : Nat} (h : PI s) : PI (sendRaw c s mk len).1 := by
  unfold sendRaw
  dsimp only
  have hnext : (s.nextId + 1) % 2 ^ 64 = (s.taken + 1) % 2 ^ 64 := by rw [h.next]; omega
  split
  · obtain ⟨e1, e2, e3, _⟩ := doRequest_taken (takeId s) s.nextId mk
    have idlt : s.taken + 1 ≤ 2 ^ 64 → s.nextId = s.taken := by
      intro hb; rw [h.next]; exact Nat.mod_eq_of_lt (by omega)
    refine ⟨?_, ?_, ?_, ?_⟩
    · dsimp only; rw [e1, e2]; exact hnext
    · dsimp only; rw [e1]
      intro hb i hi
      change s.taken + 1 ≤ 2 ^ 64 at hb
      change i < s.taken + 1
      rcases List.mem_cons.mp hi with hi | hi
      · rw [hi, idlt hb]; omega
      · have := h.lt (by omega) i hi; omega
    · dsimp only; rw [e1]
      intro hb
      change s.taken + 1 ≤ 2 ^ 64 at hb
      refine List.pairwise_cons.mpr ⟨?_, h.dec (by omega)⟩
      intro i hi
      have := h.lt (by omega) i hi
      rw [idlt hb]; exact this
    · dsimp only; rw [e1]
      intro hb
      change s.taken + 1 ≤ 2 ^ 64 at hb
      have hp := h.part (by omega)
      cases hpa : paused (takeId s) with
      | false =>
        rw [doRequest_open hpa]
        exact List.Perm.cons _ hp
      | true =>
        rw [doRequest_paused hpa]
        dsimp only
        have hf : (takeId s).pending.filter (fun p => p.1 ≠ s.nextId) = s.pending := by
          apply List.filter_eq_self.mpr
          intro p hpm
          have hi : p.1 ∈ s.issued := hp.subset (List.mem_append_right _ (List.mem_map_of_mem hpm))
          have := h.lt (by omega) _ hi
          have h3 := idlt hb
          simp; omega
        rw [hf]
        simp only [List.map_cons]
        exact (List.perm_middle).trans (List.Perm.cons _ hp)
  · refine ⟨hnext, ?_, ?_, ?_⟩
    · intro hb i hi
      change s.taken + 1 ≤ 2 ^ 64 at hb
      change i < s.taken + 1
      have := h.lt (by omega) i hi; omega
    · intro hb
      change s.taken + 1 ≤ 2 ^ 64 at hb
      exact h.dec (by omega)
    · intro hb
      change s.taken + 1 ≤ 2 ^ 64 at hb
      exact h.part (by omega)

theorem foldl_ind {α β : Type} {f : β → α → β} {P : β → Prop} (hf : ∀ b a, P b → P (f b a)) :
    ∀ (l : List α) (b : β), P b → P (l.foldl f b)
  | [], _, h => h
  | a :: l, b, h => foldl_ind hf l (f b a) (hf b a h)

theorem handleChange_PI {c : Cfg} {s : St} {msg len : Nat} {xs : List (Nat × Nat)} (h : PI s) :
    PI (handleChange c s msg len xs) := by
  unfold handleChange
  have h1 : PI (sendHook c s (.eth s.setId msg) len) := sendRaw_PI h
  have h2 := foldl_ind (P := PI) (f := fun t m => sendHook c t (.xrpl m.1) m.2)
    (fun b a hb => sendRaw_PI hb) xs _ h1
  exact ⟨h2.next, h2.lt, h2.dec, h2.part⟩

/-- Requests made while the bridge is open are sent in order. -/
theorem drain_open : ∀ (l : List (Nat × Req)) (s : St), paused s = false →
    l.foldl (fun t p => doRequest t p.1 p.2) s =
      { s with sent := (l.map (fun p => (p.1, refresh s p.2))).reverse ++ s.sent }
  | [], s, _ => rfl
  | p :: l, s, h => by
    simp only [List.foldl_cons]
    have h' : paused { s with sent := (p.1, refresh s p.2) :: s.sent } = false := h
    have hr : ∀ r, refresh { s with sent := (p.1, refresh s p.2) :: s.sent } r = refresh s r := by
      intro r; cases r <;> rfl
    rw [doRequest_open h, drain_open l _ h']
    simp only [hr]
    simp only [List.map_cons, List.reverse_cons, List.append_assoc, List.cons_append, List.nil_append]

theorem idle_ok {s s' : St} {order : List (Nat × Req)} {budget : Nat} (h : idle s order budget = .ok s') :
    order.Perm s.pending ∧ ((paused s = true ∧ s' = s) ∨ (paused s = false ∧ s' = { s with
      pending := order.drop (min s.perBlock budget),
      sent := ((order.take (min s.perBlock budget)).map (fun p => (p.1, refresh s p.2))).reverse ++ s.sent })) := by
  simp only [idle, bind_ok, ensure_ok] at h
  obtain ⟨_, h1, h⟩ := h
  refine ⟨h1, ?_⟩
  cases hp : paused s with
  | true =>
    rw [if_pos hp] at h
    cases h
    exact Or.inl ⟨rfl, rfl⟩
  | false =>
    have hp' : paused { s with pending := order.drop (min s.perBlock budget) } = false := hp
    have hr : ∀ r, refresh { s with pending := order.drop (min s.perBlock budget) } r = refresh s r := by
      intro r; cases r <;> rfl
    rw [if_neg (by simp [hp]), drain_open _ _ hp'] at h
    simp only [hr] at h
    cases h
    exact Or.inr ⟨rfl, rfl⟩

theorem PI.step {c : Cfg} {s s' : St} {op : Op} (h : PI s) (hs : step c s op = .ok s') : PI s' := by
  cases op with
  | send mk len =>
    simp only [EthyProof.step, send] at hs
    split at hs
    · cases hs; exact sendRaw_PI h
    · cases hs
  | sendHook mk len => cases hs; exact sendRaw_PI h
  | setPaused b => cases hs; exact ⟨h.next, h.lt, h.dec, h.part⟩
  | setPerBlock n => cases hs; exact ⟨h.next, h.lt, h.dec, h.part⟩
  | handleChange msg len xs => cases hs; exact handleChange_PI h
  | finalise => cases hs; exact ⟨h.next, h.lt, h.dec, h.part⟩
  | idle order budget =>
    obtain ⟨hperm, ⟨_, rfl⟩ | ⟨_, rfl⟩⟩ := idle_ok hs
    · exact h
    · refine ⟨h.next, h.lt, h.dec, ?_⟩
      intro hb
      refine List.Perm.trans ?_ (h.part hb)
      dsimp only
      have e : (((order.take (min s.perBlock budget)).map (fun p => (p.1, refresh s p.2))).reverse ++ s.sent).map
          Prod.fst = ((order.take (min s.perBlock budget)).map Prod.fst).reverse ++ s.sent.map Prod.fst := by
        simp [List.map_reverse, Function.comp_def]
      rw [e, List.append_assoc]
      have h1 : ((order.take (min s.perBlock budget)).map Prod.fst).reverse.Perm
          ((order.take (min s.perBlock budget)).map Prod.fst) := List.reverse_perm _
      refine (h1.append_right _).trans ?_
      refine List.perm_append_comm_assoc _ _ _ |>.trans ?_
      refine List.Perm.append_left _ ?_
      rw [← List.map_append, List.take_append_drop]
      exact hperm.map _

theorem Reach.pi {c : Cfg} {s : St} (h : Reach c s) : PI s := by
  induction h with
  | init hg =>
    refine ⟨by rw [hg.nextId, hg.taken]; rfl, ?_, ?_, ?_⟩
    · intro _ i hi; rw [hg.issued] at hi; cases hi
    · intro _; rw [hg.issued]; exact List.Pairwise.nil
    · intro _; rw [hg.issued, hg.sent, hg.pending]; exact List.Perm.nil
  | step _ hs ih => exact ih.step hs

end Verif.EthyProof
