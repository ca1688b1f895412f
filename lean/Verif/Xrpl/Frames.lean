import Verif.Xrpl.Model

/-!
# Which storage items each operation touches
-/

namespace Verif.Xrpl

theorem send_frame {c : Cfg} {s s' : St} {addr : Addr} {w : Wd} (h : send c s addr w = .ok s') :
    ∃ o, s' = { s with outbox := o } := by
  unfold send at h
  split at h
  · cases h; exact ⟨_, rfl⟩
  · simp only [bind_ok, ensure_ok, pure_ok] at h
    obtain ⟨_, _, _, _, rfl⟩ := h
    exact ⟨_, rfl⟩

theorem payOne_frame (c : Cfg) (addr : Addr) (s : St) (id : Nat) :
    ∃ p o l, payOne c addr s id = { s with payments := p, outbox := o, lost := l } := by
  unfold payOne
  split
  · exact ⟨_, _, _, rfl⟩
  · split
    · rename_i h
      obtain ⟨o, rfl⟩ := send_frame h
      exact ⟨_, _, _, rfl⟩
    · exact ⟨_, _, _, rfl⟩

theorem payAll_frame (c : Cfg) (addr : Addr) : ∀ (ids : List Nat) (s : St),
    ∃ p o l, ids.foldl (payOne c addr) s = { s with payments := p, outbox := o, lost := l }
  | [], s => ⟨_, _, _, rfl⟩
  | id :: ids, s => by
    obtain ⟨p, o, l, e⟩ := payOne_frame c addr s id
    obtain ⟨p', o', l', e'⟩ := payAll_frame c addr ids (payOne c addr s id)
    rw [List.foldl_cons, e', e]
    exact ⟨_, _, _, rfl⟩

theorem delayLoop_frame (c : Cfg) (addr : Addr) (limit : Nat) : ∀ (ks : List Nat) (s : St),
    ∃ p o l sc q, delayLoop c addr limit ks s = { s with payments := p, outbox := o, lost := l, sched := sc, ptr := q }
  | [], s => ⟨_, _, _, _, _, rfl⟩
  | k :: ks, s => by
    unfold delayLoop
    split
    · split
      · obtain ⟨p, o, l, e⟩ := payAll_frame c addr ((s.sched s.ptr).take k)
          { s with sched := upd s.sched s.ptr ((s.sched s.ptr).drop k) }
        rw [e]
        exact ⟨_, _, _, _, _, rfl⟩
      · obtain ⟨p, o, l, e⟩ := payAll_frame c addr (s.sched s.ptr)
          { s with
            sched := upd s.sched s.ptr []
            ptr := s.ptr + 1 }
        rw [e]
        obtain ⟨p', o', l', sc, q, e'⟩ := delayLoop_frame c addr limit ks { s with
            sched := upd s.sched s.ptr []
            ptr := s.ptr + 1
            payments := p
            outbox := o
            lost := l }
        exact ⟨_, _, _, _, _, e'⟩
    · exact ⟨_, _, _, _, _, rfl⟩

theorem delayed_frame (c : Cfg) (ks : List Nat) (s : St) :
    ∃ p o l sc q, delayed c ks s = { s with payments := p, outbox := o, lost := l, sched := sc, ptr := q } := by
  unfold delayed
  split
  · exact ⟨_, _, _, _, _, rfl⟩
  · exact delayLoop_frame c _ _ ks s

theorem clearLoop_frame (stop : Nat) : ∀ (ks : List Nat) (s : St),
    ∃ d st p, clearLoop stop ks s = { s with details := d, settled := st, pruned := p }
  | [], s => ⟨_, _, _, rfl⟩
  | k :: ks, s => by
    unfold clearLoop
    split
    · split
      · exact ⟨_, _, _, rfl⟩
      · obtain ⟨d, st, p, e⟩ := clearLoop_frame stop ks { s with
          details := forget s.details (s.settled s.pruned)
          settled := upd s.settled s.pruned []
          pruned := s.pruned + 1 }
        exact ⟨_, _, _, e⟩
    · exact ⟨_, _, _, rfl⟩

theorem processOne_frame {c : Cfg} {x : Hash → Bool} {s s' : St} {h : Hash} (hs : processOne c x s h = .ok s') :
    ∃ L st hi cr, s' = { s with ledger := L, settled := st, highest := hi, credited := cr } := by
  unfold processOne at hs
  split at hs
  · cases hs; exact ⟨_, _, _, _, rfl⟩
  · split at hs
    · cases hs; exact ⟨_, _, _, _, rfl⟩
    · split at hs
      · cases hs; exact ⟨_, _, _, _, rfl⟩
      · simp only [bind_ok, ensure_ok, pure_ok] at hs
        obtain ⟨_, _, rfl⟩ := hs
        exact ⟨_, _, _, _, rfl⟩

theorem processList_frame {c : Cfg} {x : Hash → Bool} : ∀ (hs : List Hash) {s s' : St}, processList c x hs s = .ok s' →
    ∃ L st hi cr, s' = { s with ledger := L, settled := st, highest := hi, credited := cr }
  | [], _, _, h => by cases h; exact ⟨_, _, _, _, rfl⟩
  | h :: hs, s, s', hp => by
    simp only [processList, bind_ok] at hp
    obtain ⟨s1, h1, h2⟩ := hp
    obtain ⟨L, st, hi, cr, rfl⟩ := processOne_frame h1
    obtain ⟨L', st', hi', cr', rfl⟩ := processList_frame hs h2
    exact ⟨_, _, _, _, rfl⟩

theorem ticket_frame {s : St} {d : Door} {t : St × Nat} (h : ticket s d = .ok t) :
    ∃ p n q, t.1 = { s with params := p, next := n, seq := q } := by
  simp only [ticket, bind_ok, ensure_ok] at h
  obtain ⟨_, _, _, _, h⟩ := h
  split at h
  · simp only [bind_ok, ensure_ok, pure_ok] at h
    obtain ⟨_, _, _, _, rfl⟩ := h
    exact ⟨_, _, _, rfl⟩
  · simp only [pure_ok] at h
    subst h
    exact ⟨_, _, _, rfl⟩

theorem withdraw_frame {c : Cfg} {s s' : St} {who : Acct} {a : AssetId} {x : Nat} {dest : Addr} {tag : Option Nat}
    (h : withdraw c s who a x dest tag = .ok s') :
    ∃ L p n q o sc ps i, s' = { s with
      ledger := L
      params := p
      next := n
      seq := q
      outbox := o
      sched := sc
      payments := ps
      nextId := i } := by
  simp only [withdraw, bind_ok, ensure_ok, okOr_ok] at h
  obtain ⟨_, _, _, _, y, _, addr, _, r, _, t, ht, h⟩ := h
  obtain ⟨p, n, q, e⟩ := ticket_frame ht
  split at h
  · simp only [delayPayment, bind_ok, ensure_ok, pure_ok] at h
    obtain ⟨_, _, _, _, rfl⟩ := h
    rw [e]
    exact ⟨_, _, _, _, _, _, _, _, rfl⟩
  · obtain ⟨o, rfl⟩ := send_frame h
    rw [e]
    exact ⟨_, _, _, _, _, _, _, _, rfl⟩

theorem signersOne_frame {s s' : St} {d : Door} (h : signersOne s d = .ok s') :
    ∃ p n q o, s' = { s with params := p, next := n, seq := q, outbox := o } := by
  simp only [signersOne, bind_ok, okOr_ok, pure_ok] at h
  obtain ⟨_, _, t, ht, rfl⟩ := h
  obtain ⟨p, n, q, e⟩ := ticket_frame ht
  rw [e]
  exact ⟨_, _, _, _, rfl⟩

theorem signers_frame (s : St) : ∃ p n q o, signers s = { s with params := p, next := n, seq := q, outbox := o } := by
  unfold signers
  split
  · exact ⟨_, _, _, _, rfl⟩
  · rename_i s1 h1
    obtain ⟨p, n, q, o, rfl⟩ := signersOne_frame h1
    split
    · exact ⟨_, _, _, _, rfl⟩
    · rename_i s2 h2
      obtain ⟨p, n, q, o, rfl⟩ := signersOne_frame h2
      exact ⟨_, _, _, _, rfl⟩

theorem nftTx_frame {s s' : St} {dest : Addr} (h : nftTx s dest = .ok s') :
    ∃ p n q o, s' = { s with params := p, next := n, seq := q, outbox := o } := by
  simp only [nftTx, bind_ok, okOr_ok, pure_ok] at h
  obtain ⟨_, _, t, ht, rfl⟩ := h
  obtain ⟨p, n, q, e⟩ := ticket_frame ht
  rw [e]
  exact ⟨_, _, _, _, rfl⟩

/-- The state at the beginning of the next block, before its deposits are processed. -/
theorem block_ok {c : Cfg} {s s' : St} {ks ps : List Nat} {x : Hash → Bool} (h : block c s ks ps x = .ok s') :
    s.now + 1 + c.period < U32 ∧ ∃ p o l sc q,
      processTx c x { clear c ps { s with payments := p, outbox := o, lost := l, sched := sc, ptr := q } with now := s.now + 1 }
        = .ok s' ∧ delayed c ks s = { s with payments := p, outbox := o, lost := l, sched := sc, ptr := q } := by
  simp only [block, bind_ok, ensure_ok] at h
  obtain ⟨_, hb, h⟩ := h
  obtain ⟨p, o, l, sc, q, e⟩ := delayed_frame c ks s
  rw [e] at h
  exact ⟨hb, p, o, l, sc, q, h, e⟩

end Verif.Xrpl
