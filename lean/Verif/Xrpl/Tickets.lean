import Verif.Xrpl.Sched

/-!
# C42: tickets of the door accounts
-/

namespace Verif.Xrpl

/-- What the operator has to respect: a new allocation lies behind the tickets already allocated. -/
@[reducible] def Fresh (s : St) : Op → Prop
  | .nextAlloc _ d a _ => (s.params d).1 + (s.params d).2 ≤ a
  | .curAlloc d t a b => s.next d = (0, 0) ∨ (a + b ≤ (s.next d).1 ∧ t ≤ (s.next d).1)
  | _ => True

structure TI (outbox : List Msg) (pay : Nat → Option Wd) (seq : Door → Nat) (params nxt : Door → Nat × Nat) : Prop where
  out : ∀ m ∈ outbox, m.ticket < seq m.door
  held : ∀ i w, pay i = some w → w.ticket < seq .main
  nodup : (outbox.map (fun m => (m.door, m.ticket))).Nodup
  inj : ∀ i j w v, pay i = some w → pay j = some v → w.ticket = v.ticket → i = j
  disj : ∀ m ∈ outbox, ∀ i w, pay i = some w → (m.door, m.ticket) ≠ (.main, w.ticket)
  next : ∀ d, nxt d = (0, 0) ∨ ((params d).1 + (params d).2 ≤ (nxt d).1 ∧ seq d ≤ (nxt d).1)

def TIs (s : St) : Prop := TI s.outbox s.payments s.seq s.params s.next

/-- Taking a ticket: it is new. -/
theorem ticket_ti {s : St} {d : Door} {t : St × Nat} (h : TIs s) (ht : ticket s d = .ok t) :
    TIs t.1 ∧ s.seq d ≤ t.2 ∧ t.2 < t.1.seq d ∧ t.1.outbox = s.outbox ∧ t.1.payments = s.payments ∧
      (∀ d', d' ≠ d → t.1.seq d' = s.seq d') := by
  simp only [ticket, bind_ok, ensure_ok] at ht
  obtain ⟨_, _, _, _, ht⟩ := ht
  have grow : ∀ n, s.seq d ≤ n → ∀ d', s.seq d' ≤ upd s.seq d n d' := by
    intro n hn d'
    rw [upd_apply]
    split
    · rename_i e; rw [e]; exact hn
    · exact Nat.le_refl _
  split at ht
  · rename_i hend
    simp only [bind_ok, ensure_ok, pure_ok] at ht
    obtain ⟨_, hne, _, _, rfl⟩ := ht
    have hn : s.seq d ≤ (s.next d).1 := by
      rcases h.next d with e | e
      · exact absurd e hne.1
      · exact e.2
    refine ⟨⟨?_, ?_, h.nodup, h.inj, h.disj, ?_⟩, hn, by simp, rfl, rfl, fun d' h' => upd_ne _ _ h'⟩
    · intro m hm
      exact Nat.lt_of_lt_of_le (h.out m hm) (grow _ (by omega) _)
    · intro i w hw
      exact Nat.lt_of_lt_of_le (h.held i w hw) (grow _ (by omega) _)
    · intro d'
      by_cases e : d' = d
      · subst e; exact Or.inl (upd_same _ _ _)
      · dsimp only
        rw [upd_ne _ _ e, upd_ne _ _ e, upd_ne _ _ e]
        exact h.next d'
  · rename_i hend
    simp only [pure_ok] at ht
    subst ht
    refine ⟨⟨?_, ?_, h.nodup, h.inj, h.disj, ?_⟩, Nat.le_refl _, by simp, rfl, rfl, fun d' h' => upd_ne _ _ h'⟩
    · intro m hm
      exact Nat.lt_of_lt_of_le (h.out m hm) (grow _ (by omega) _)
    · intro i w hw
      exact Nat.lt_of_lt_of_le (h.held i w hw) (grow _ (by omega) _)
    · intro d'
      rcases h.next d' with e | e
      · exact Or.inl e
      · refine Or.inr ⟨e.1, ?_⟩
        dsimp only
        rw [upd_apply]
        split
        · rename_i e'; subst e'; omega
        · exact e.2

/-- A transaction with a new ticket is handed over. -/
theorem TI.send {o : List Msg} {pay : Nat → Option Wd} {seq : Door → Nat} {params next : Door → Nat × Nat}
    (h : TI o pay seq params next) {m : Msg} (hlt : m.ticket < seq m.door) (ho : ∀ m' ∈ o, m'.door = m.door → m'.ticket < m.ticket)
    (hp : m.door = .main → ∀ i w, pay i = some w → w.ticket < m.ticket) : TI (o ++ [m]) pay seq params next := by
  refine ⟨?_, h.held, ?_, h.inj, ?_, h.next⟩
  · intro m' hm'
    rcases List.mem_append.mp hm' with h1 | h1
    · exact h.out m' h1
    · rw [List.mem_singleton] at h1; subst h1; exact hlt
  · rw [List.map_append, List.nodup_append]
    refine ⟨h.nodup, by simp, ?_⟩
    intro x hx y hy
    simp only [List.map_cons, List.map_nil, List.mem_singleton] at hy
    subst hy
    rintro rfl
    obtain ⟨m', hm', e⟩ := List.mem_map.mp hx
    simp only [Prod.mk.injEq] at e
    have := ho m' hm' e.1
    omega
  · intro m' hm' i w hw
    rcases List.mem_append.mp hm' with h1 | h1
    · exact h.disj m' h1 i w hw
    · rw [List.mem_singleton] at h1
      subst h1
      intro e
      simp only [Prod.mk.injEq] at e
      have := hp e.1 i w hw
      omega

theorem send_msg {c : Cfg} {s s' : St} {addr : Addr} {w : Wd} (h : send c s addr w = .ok s') :
    ∃ m, s' = { s with outbox := s.outbox ++ [m] } ∧ m.door = .main ∧ m.ticket = w.ticket := by
  unfold send at h
  split at h
  · cases h; exact ⟨_, rfl, rfl, rfl⟩
  · simp only [bind_ok, ensure_ok, pure_ok] at h
    obtain ⟨_, _, _, _, rfl⟩ := h
    exact ⟨_, rfl, rfl, rfl⟩

theorem payOne_ti {c : Cfg} {addr : Addr} {s : St} {id : Nat} (h : TIs s) : TIs (payOne c addr s id) := by
  unfold payOne
  split
  · exact h
  · rename_i w hw
    have hsub : ∀ i v, upd s.payments id none i = some v → s.payments i = some v ∧ i ≠ id := by
      intro i v hv
      rw [upd_apply] at hv
      split at hv
      · cases hv
      · rename_i e; exact ⟨hv, e⟩
    have h0 : TI s.outbox (upd s.payments id none) s.seq s.params s.next :=
      ⟨h.out, fun i v hv => h.held i v (hsub i v hv).1, h.nodup,
        fun i j v v' hv hv' => h.inj i j v v' (hsub i v hv).1 (hsub j v' hv').1,
        fun m hm i v hv => h.disj m hm i v (hsub i v hv).1, h.next⟩
    split
    · rename_i s1 hs
      obtain ⟨m, rfl, e1, e2⟩ := send_msg hs
      refine ⟨?_, h0.held, ?_, h0.inj, ?_, h0.next⟩
      · intro m' hm'
        rcases List.mem_append.mp hm' with h1 | h1
        · exact h.out m' h1
        · rw [List.mem_singleton] at h1
          subst h1
          rw [e1, e2]
          exact h.held id w hw
      · dsimp only
        rw [List.map_append, List.nodup_append]
        refine ⟨h.nodup, by simp, ?_⟩
        intro x hx y hy
        simp only [List.map_cons, List.map_nil, List.mem_singleton] at hy
        subst hy
        rintro rfl
        obtain ⟨m', hm', e⟩ := List.mem_map.mp hx
        rw [e1, e2] at e
        exact h.disj m' hm' id w hw e
      · intro m' hm' i v hv
        rcases List.mem_append.mp hm' with h1 | h1
        · exact h0.disj m' h1 i v hv
        · rw [List.mem_singleton] at h1
          subst h1
          intro e
          rw [e1, e2] at e
          simp only [Prod.mk.injEq, true_and] at e
          exact (hsub i v hv).2 (h.inj id i w v hw (hsub i v hv).1 e).symm
    · exact h0

theorem payAll_ti {c : Cfg} {addr : Addr} : ∀ (ids : List Nat) {s : St}, TIs s → TIs (ids.foldl (payOne c addr) s)
  | [], _, h => h
  | id :: ids, _, h => by
    rw [List.foldl_cons]
    exact payAll_ti ids (payOne_ti h)

theorem delayLoop_ti {c : Cfg} {addr : Addr} {limit : Nat} : ∀ (ks : List Nat) {s : St}, TIs s →
    TIs (delayLoop c addr limit ks s)
  | [], _, h => h
  | k :: ks, s, h => by
    unfold delayLoop
    split
    · split
      · exact payAll_ti _ (s := { s with sched := upd s.sched s.ptr ((s.sched s.ptr).drop k) }) h
      · exact delayLoop_ti ks (payAll_ti _ (s := { s with
          sched := upd s.sched s.ptr []
          ptr := s.ptr + 1 }) h)
    · exact h

/-- Before the ticket was taken, everything used was smaller. -/
theorem TI.older {s : St} (h : TIs s) {d : Door} {n : Nat} (hn : s.seq d ≤ n) :
    (∀ m ∈ s.outbox, m.door = d → m.ticket < n) ∧ (d = .main → ∀ i w, s.payments i = some w → w.ticket < n) := by
  refine ⟨fun m hm e => ?_, fun e i w hw => ?_⟩
  · have := h.out m hm
    rw [e] at this
    omega
  · have := h.held i w hw
    rw [← e] at this
    omega

theorem withdraw_ti {c : Cfg} {s s' : St} {who : Acct} {a : AssetId} {x : Nat} {dest : Addr} {tag : Option Nat} (hsi : SIs s)
    (hti : TIs s) (h : withdraw c s who a x dest tag = .ok s') : TIs s' := by
  simp only [withdraw, bind_ok, ensure_ok, okOr_ok] at h
  obtain ⟨_, _, _, _, y, _, addr, _, r, _, t, ht, h⟩ := h
  obtain ⟨h1, h2, h3, h4, h5, h6⟩ := ticket_ti (s := { s with ledger := r.1 }) hti ht
  obtain ⟨o1, o2⟩ := TI.older (s := { s with ledger := r.1 }) hti h2
  obtain ⟨p, n, q, e⟩ := ticket_frame ht
  split at h
  · simp only [delayPayment, bind_ok, ensure_ok, pure_ok] at h
    obtain ⟨_, _, _, _, rfl⟩ := h
    have hid : t.1.nextId = s.nextId := by rw [e]
    have hsub : ∀ i v, upd t.1.payments t.1.nextId (some (⟨who, tag, s.fee .main, t.2, y, dest, a, r.2⟩ : Wd)) i = some v →
        (i = t.1.nextId ∧ v.ticket = t.2) ∨ (s.payments i = some v) := by
      intro i v hv
      rw [upd_apply] at hv
      split at hv
      · rename_i e; cases hv; exact Or.inl ⟨e, rfl⟩
      · rw [h5] at hv; exact Or.inr hv
    refine ⟨h1.out, ?_, h1.nodup, ?_, ?_, h1.next⟩
    · intro i v hv
      rcases hsub i v hv with ⟨_, e⟩ | e
      · rw [e]; exact h3
      · exact Nat.lt_trans (o2 rfl i v e) h3
    · intro i j v v' hv hv' he
      rcases hsub i v hv with ⟨k1, k2⟩ | k
      · rcases hsub j v' hv' with ⟨l1, l2⟩ | l
        · rw [k1, l1]
        · have := o2 rfl j v' l
          omega
      · rcases hsub j v' hv' with ⟨l1, l2⟩ | l
        · have := o2 rfl i v k
          omega
        · exact hti.inj i j v v' k l he
    · intro m hm i v hv
      have hm' : m ∈ s.outbox := by
        dsimp only at hm
        rw [h4] at hm
        exact hm
      rcases hsub i v hv with ⟨_, k2⟩ | k
      · intro e
        simp only [Prod.mk.injEq] at e
        have := o1 m hm' e.1
        omega
      · exact hti.disj m hm' i v k
  · obtain ⟨m, rfl, e1, e2⟩ := send_msg h
    refine TI.send h1 ?_ ?_ ?_
    · rw [e1, e2]; exact h3
    · rw [h4, e1, e2]; exact o1
    · rw [h5, e1, e2]; exact o2

theorem signersOne_ti {s s' : St} {d : Door} (hti : TIs s) (h : signersOne s d = .ok s') : TIs s' := by
  simp only [signersOne, bind_ok, okOr_ok, pure_ok] at h
  obtain ⟨_, _, t, ht, rfl⟩ := h
  obtain ⟨h1, h2, h3, h4, h5, h6⟩ := ticket_ti hti ht
  obtain ⟨o1, o2⟩ := TI.older hti h2
  refine TI.send h1 h3 ?_ ?_
  · rw [h4]; exact o1
  · rw [h5]; exact o2

theorem step_ti {c : Cfg} {s s' : St} {op : Op} (hsi : SIs s) (h : TIs s) (hf : Fresh s op) (hs : step c s op = .ok s') :
    TIs s' := by
  cases op with
  | withdraw w a x d t => exact withdraw_ti hsi h hs
  | block ks ps x =>
    obtain ⟨e1, _, _, _, _, e6, _, _, e9, e10, e11, _⟩ := block_sched hs
    have h1 : TIs (delayed c ks s) := by
      unfold delayed
      split
      · exact h
      · exact delayLoop_ti ks h
    obtain ⟨p, o, l, sc, q, e⟩ := delayed_frame c ks s
    have e12 : (delayed c ks s).seq = s.seq := by rw [e]
    have e13 : (delayed c ks s).params = s.params := by rw [e]
    have e14 : (delayed c ks s).next = s.next := by rw [e]
    unfold TIs at h1 ⊢
    rw [e12, e13, e14] at h1
    rw [e1, e6, e9, e10, e11]
    exact h1
  | nftTx d =>
    simp only [step, nftTx, bind_ok, okOr_ok, pure_ok] at hs
    obtain ⟨_, _, t, ht, rfl⟩ := hs
    obtain ⟨h1, h2, h3, h4, h5, h6⟩ := ticket_ti h ht
    obtain ⟨o1, o2⟩ := TI.older h h2
    refine TI.send h1 h3 ?_ ?_
    · rw [h4]; exact o1
    · rw [h5]; exact o2
  | signers =>
    simp only [step] at hs
    cases hs
    unfold signers
    split
    · exact h
    · rename_i s1 h1
      have := signersOne_ti h h1
      split
      · exact this
      · rename_i s2 h2
        exact signersOne_ti this h2
  | nextAlloc w d a b =>
    simp only [step, nextAlloc, bind_ok, ensure_ok, pure_ok] at hs
    obtain ⟨_, _, _, _, _, hb, rfl⟩ := hs
    refine ⟨h.out, h.held, h.nodup, h.inj, h.disj, fun d' => ?_⟩
    dsimp only
    rw [upd_apply]
    split
    · rename_i e; subst e; exact Or.inr ⟨hf, hb.1⟩
    · exact h.next d'
  | curAlloc d t a b =>
    simp only [step, curAlloc, bind_ok, ensure_ok, pure_ok] at hs
    obtain ⟨_, _, _, hb, rfl⟩ := hs
    have grow : ∀ d', s.seq d' ≤ upd s.seq d t d' := by
      intro d'
      rw [upd_apply]
      split
      · rename_i e; rw [e]; exact hb.1
      · exact Nat.le_refl _
    refine ⟨fun m hm => Nat.lt_of_lt_of_le (h.out m hm) (grow _),
      fun i w hw => Nat.lt_of_lt_of_le (h.held i w hw) (grow _), h.nodup, h.inj, h.disj, fun d' => ?_⟩
    dsimp only
    by_cases e : d' = d
    · subst e
      rw [upd_same, upd_same]
      exact hf
    · rw [upd_ne _ _ e, upd_ne _ _ e]
      exact h.next d'
  | submit w i g d =>
    simp only [step, submit, bind_ok, ensure_ok, pure_ok] at hs
    obtain ⟨_, _, _, _, _, hw, _, hn, _, _, rfl⟩ := hs
    exact h
  | challenge w g => cases hs; exact h
  | prune i =>
    simp only [step, prune, bind_ok, ensure_ok, pure_ok] at hs
    obtain ⟨_, hi, _, _, rfl⟩ := hs
    exact h
  | setFee d x =>
    simp only [step, bind_ok, ensure_ok, pure_ok] at hs
    obtain ⟨_, _, rfl⟩ := hs
    exact h
  | removeMap a =>
    simp only [step, bind_ok, okOr_ok, pure_ok] at hs
    obtain ⟨_, _, rfl⟩ := hs
    exact h
  | setRelayer w b => cases hs; exact h
  | setDelay a v => cases hs; exact h
  | setDoor d a => cases hs; exact h
  | setMap a cur => cases hs; exact h
  | ledger L => cases hs; exact h
  | setDec a n => cases hs; exact h

theorem Reach.ti {c : Cfg} {G : St → Op → Prop} {g s : St} (hG : ∀ s op, G s op → Fresh s op) (h : Reach c G g s) : TIs s := by
  induction h with
  | init hg =>
    refine ⟨?_, ?_, ?_, ?_, ?_, ?_⟩
    · rw [hg.outbox]; simp
    · intro i w hw; rw [hg.payments] at hw; cases hw
    · rw [hg.outbox]; simp
    · intro i j w v hw; rw [hg.payments] at hw; cases hw
    · rw [hg.outbox]; simp
    · exact fun d => Or.inl (hg.seq d)
  | step hr hg hs ih => exact step_ti hr.sis ih (hG _ _ hg) hs

/-- C42, partial: as long as new allocations lie behind the tickets already allocated, no two transactions of a door account
carry the same ticket, and no waiting withdrawal holds a ticket that was used or that another one holds. Missing:
`C42_refuted`, the calls also accept allocations that overlap the current one. -/
theorem C42_unique_partial {c : Cfg} {G : St → Op → Prop} {g s : St} (hG : ∀ s op, G s op → Fresh s op) (h : Reach c G g s) :
    (s.outbox.map (fun m => (m.door, m.ticket))).Nodup ∧
      (∀ i j w v, s.payments i = some w → s.payments j = some v → w.ticket = v.ticket → i = j) ∧
      ∀ m ∈ s.outbox, ∀ i w, s.payments i = some w → m.door = .main → m.ticket ≠ w.ticket := by
  have := h.ti hG
  refine ⟨this.nodup, this.inj, fun m hm i w hw hd e => this.disj m hm i w hw ?_⟩
  rw [hd, e]

end Verif.Xrpl
