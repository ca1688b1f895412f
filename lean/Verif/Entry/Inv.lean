import Verif.Entry.User

/-!
# Invariants of the entry points

Holders and owners of futurepasses mirror each other; nonces only grow between removals of an account.
-/

namespace Verif.Entry

/-- Holders and owners mirror each other and every owner is a delegate. -/
structure Linked (s : St) : Prop where
  back : ∀ {a f : Acct}, s.holder a = some f → s.owner f = some a
  forth : ∀ {f a : Acct}, s.owner f = some a → s.holder a = some f ∧ s.delegate f a = true

theorem Linked.congr {s s1 : St} (h : Linked s) (h1 : s1.holder = s.holder) (h2 : s1.owner = s.owner)
    (h3 : s1.delegate = s.delegate) : Linked s1 := by
  refine ⟨fun e => ?_, fun e => ?_⟩
  · rw [h1] at e; rw [h2]; exact h.back e
  · rw [h2] at e; rw [h1, h3]; exact h.forth e

/-- What a transaction leaves alone. -/
structure TxFrame (s s1 : St) : Prop where
  block : s1.block = s.block
  holder : s1.holder = s.holder
  owner : s1.owner = s.owner
  delegate : s1.delegate = s.delegate
  sudoKey : s1.sudoKey = s.sudoKey

theorem Frame.tx {s s1 : St} (h : Frame s s1) : TxFrame s s1 :=
  ⟨h.block, h.holder, h.owner, h.delegate, h.sudoKey⟩

/-- After the call: what had begun, plus the call's effect. -/
theorem settle_frame {r : Except Err St} {s : St} {v : Via}
    (h : ∀ s1, r = .ok s1 → Frame s s1 ∧ Since s s1 (Kind v)) :
    Frame s (settle r s) ∧ Since s (settle r s) (Kind v) := by
  rcases settle_cases r s with h1 | h1
  · exact h _ h1
  · rw [h1]; exact ⟨Frame.refl _, Since.refl _ _⟩

theorem evmRun_frame {c : Cfg} {s s1 : St} {v : Via} {src t i : Acct} {l : List Sub}
    (h : evmRun c s v src t i l = .ok s1) : Frame s s1 ∧ Since s s1 (Kind v) := by
  exact evmRun_kind h

theorem xTransact_frame {c : Cfg} {s s1 : St} {m : Blob} {x : Call} (h : xTransact c s m x = .ok s1) :
    Frame s s1 ∧ Since s s1 (Kind .xrpl) := by
  obtain ⟨_, _, a, _, h⟩ := xTransact_ok h
  exact dispatch_frame h

theorem dTransact_frame {c : Cfg} {s s1 : St} {p : Payload} {x : Call} (h : dTransact c s p x = .ok s1) :
    Frame s s1 ∧ Since s s1 (Kind .doughnut) := by
  obtain ⟨_, _, iss, _, _, _, _, _, _, _, _, _, _, rfl⟩ := dTransact_ok h
  exact settle_frame fun s2 h2 => dispatch_frame h2

/-- An included transaction uses one nonce of one account and takes one fee from one account; the rest is
the call. -/
theorem signedTx_tx {c : Cfg} {s s1 : St} {who : Acct} {n tip : Nat} {x : Call}
    (h : signedTx c s who n tip x = .ok s1) :
    Frame (begun s who n (feePayer s who x) (c.feeOf x + tip)) s1 ∧
      Since s s1 (Kind .signed) := by
  obtain ⟨_, _, _, _, rfl⟩ := signedTx_ok h
  exact settle_frame fun s2 h2 => dispatch_frame h2

theorem ethereumTx_tx {c : Cfg} {s s1 : St} {src : Acct} {n : Nat} {t i : Acct} {l : List Sub}
    (h : ethereumTx c s src n t i l = .ok s1) :
    Frame { s with nonce := upd s.nonce src (n + 1) } s1 ∧ Since s s1 (Kind .ethereum) := by
  obtain ⟨_, _, rfl⟩ := ethereumTx_ok h
  exact settle_frame fun s2 h2 => evmRun_frame h2

theorem xrplTx_tx {c : Cfg} {s s1 : St} {m : Blob} {sig : Nat} {x : Call}
    (h : xrplTx c s m sig x = .ok s1) :
    ∃ eoa n payer fee, Frame (begun s eoa n payer fee) s1 ∧ Since s s1 (Kind .xrpl) := by
  obtain ⟨a, origin, eoa, d, _, _, _, _, _, _, _, rfl⟩ := xrplTx_ok h
  refine ⟨eoa, d.nonce, feePayer s origin x, c.feeOf x + d.tip, ?_⟩
  exact settle_frame fun s2 h2 => xTransact_frame h2

theorem doughnutTx_tx {c : Cfg} {s s1 : St} {p : Payload} {n g tip sig : Nat} {x : Call}
    (h : doughnutTx c s p n g tip sig x = .ok s1) :
    ∃ hol payer, Frame (begun s hol n (feePayer s payer x) (c.feeOf x + tip)) s1 ∧
      Since s s1 (Kind .doughnut) := by
  obtain ⟨hol, payer, _, _, _, _, _, _, _, _, _, rfl⟩ := doughnutTx_ok h
  refine ⟨hol, payer, ?_⟩
  exact settle_frame fun s2 h2 => dTransact_frame h2

theorem linked_step {c : Cfg} {s s1 : St} {op : Op} (hs : Linked s) (h : step c s op = .ok s1) :
    Linked s1 := by
  cases op with
  | signed who n tip x =>
    have := (signedTx_tx h).1
    exact hs.congr this.holder this.owner this.delegate
  | ethereum src n t i l =>
    have := (ethereumTx_tx h).1
    exact hs.congr this.holder this.owner this.delegate
  | xrpl m sig x =>
    obtain ⟨_, _, _, _, this, _⟩ := xrplTx_tx h
    exact hs.congr this.holder this.owner this.delegate
  | doughnut p n g tip sig x =>
    obtain ⟨_, _, this, _⟩ := doughnutTx_tx h
    exact hs.congr this.holder this.owner this.delegate
  | nextBlock =>
    simp only [step, Except.ok.injEq] at h
    subst h
    exact hs.congr rfl rfl rfl
  | setFunds a x =>
    simp only [step, Except.ok.injEq] at h
    subst h
    exact hs.congr rfl rfl rfl
  | reap a =>
    simp only [step, bind_ok, ensure_ok, pure_ok] at h
    obtain ⟨_, _, rfl⟩ := h
    exact hs.congr rfl rfl rfl
  | fpNew a fp =>
    simp only [step, bind_ok, ensure_ok, pure_ok] at h
    obtain ⟨_, h1, _, h2, rfl⟩ := h
    refine ⟨?_, ?_⟩
    · intro b f e
      change upd s.holder a (some fp) b = some f at e
      show upd s.owner fp (some a) f = some b
      by_cases hb : b = a
      · subst hb
        rw [upd_same] at e
        cases e
        rw [upd_same]
      · rw [upd_ne _ _ hb] at e
        have e2 := hs.back e
        have hf : f ≠ fp := by intro h; rw [h, h2] at e2; cases e2
        rw [upd_ne _ _ hf]; exact e2
    · intro f b e
      change upd s.owner fp (some a) f = some b at e
      show upd s.holder a (some fp) b = some f ∧ upd s.delegate fp (upd (s.delegate fp) a true) f b = true
      by_cases hf : f = fp
      · subst hf
        rw [upd_same] at e
        cases e
        exact ⟨upd_same _ _ _, by rw [upd_same, upd_same]⟩
      · rw [upd_ne _ _ hf] at e
        obtain ⟨e1, e2⟩ := hs.forth e
        have hb : b ≠ a := by intro h; rw [h, h1] at e1; cases e1
        rw [upd_ne _ _ hb, upd_ne _ _ hf]
        exact ⟨e1, e2⟩
  | fpMove fp b =>
    simp only [step, bind_ok, ensure_ok, pure_ok, okOr_ok] at h
    obtain ⟨a, h1, _, h2, rfl⟩ := h
    refine ⟨?_, ?_⟩
    · intro d f e
      change upd (upd s.holder a none) b (some fp) d = some f at e
      show upd s.owner fp (some b) f = some d
      by_cases hb : d = b
      · subst hb
        rw [upd_same] at e
        cases e
        rw [upd_same]
      · rw [upd_ne _ _ hb] at e
        by_cases hd : d = a
        · subst hd; rw [upd_same] at e; cases e
        · rw [upd_ne _ _ hd] at e
          have e2 := hs.back e
          have hf : f ≠ fp := by intro h; rw [h, h1] at e2; cases e2; exact hd rfl
          rw [upd_ne _ _ hf]; exact e2
    · intro f d e
      change upd s.owner fp (some b) f = some d at e
      show upd (upd s.holder a none) b (some fp) d = some f ∧
        upd s.delegate fp (upd (fun _ => false) b true) f d = true
      by_cases hf : f = fp
      · subst hf
        rw [upd_same] at e
        cases e
        exact ⟨upd_same _ _ _, by rw [upd_same, upd_same]⟩
      · rw [upd_ne _ _ hf] at e
        obtain ⟨e1, e2⟩ := hs.forth e
        have hb : d ≠ b := by intro h; rw [h, h2] at e1; cases e1
        have hd : d ≠ a := by
          intro h
          have e3 := (hs.forth h1).1
          rw [h, e3] at e1
          cases e1
          exact hf rfl
        rw [upd_ne _ _ hb, upd_ne _ _ hd, upd_ne _ _ hf]
        exact ⟨e1, e2⟩
  | setDelegate fp d b =>
    simp only [step, bind_ok, ensure_ok, pure_ok] at h
    obtain ⟨_, h1, rfl⟩ := h
    refine ⟨fun e => hs.back e, ?_⟩
    intro f a e
    obtain ⟨e1, e2⟩ := hs.forth e
    refine ⟨e1, ?_⟩
    show upd s.delegate fp (upd (s.delegate fp) d b) f a = true
    by_cases hf : f = fp
    · subst hf
      have hd : a ≠ d := by intro h; subst h; exact h1 e
      rw [upd_same, upd_ne _ _ hd]; exact e2
    · rw [upd_ne _ _ hf]; exact e2

theorem Reach.linked {c : Cfg} {k : Acct} {s : St} (h : Reach c k s) : Linked s := by
  induction h with
  | init => exact ⟨fun e => by simp [Entry.init] at e, fun e => by simp [Entry.init] at e⟩
  | step _ h ih => exact linked_step ih h

/-- In a reachable state the account whose nonce an XRPL message uses is the account of its key. -/
theorem xrpl_eoa {s : St} (hs : Linked s) {a origin eoa : Acct} {x : Call}
    (h : (fpCall x = true ∧ s.holder a = some origin ∧ s.owner origin = some eoa) ∨
        (fpCall x = false ∧ origin = a ∧ eoa = a)) :
    eoa = a ∧ Acts s.delegate a origin := by
  rcases h with ⟨_, h1, h2⟩ | ⟨_, rfl, h2⟩
  · have e := hs.back h1
    rw [h2] at e
    cases e
    exact ⟨rfl, .via .self (hs.forth h2).2⟩
  · exact ⟨h2, .self⟩

/-- The payer of a fee is an account the sender can act as. -/
theorem feePayer_acts {s : St} {w b : Acct} {x : Call} (h : Acts s.delegate w b) :
    Acts s.delegate w (feePayer s b x) := by
  unfold feePayer
  split
  · split
    · rename_i hd; exact .via h hd
    · exact h
  · split
    · rename_i hd; exact .via h hd
    · exact h
  · exact h

end Verif.Entry
