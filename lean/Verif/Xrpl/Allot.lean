import Verif.Xrpl.Demo

/-!
# C221: tickets come from what relayers allotted
-/

namespace Verif.Xrpl

/-- The operation allots the ticket: a relayer, as they are then, or root names a range that it is in. -/
def Allots (s : St) (d : Door) (n : Nat) : Op → Prop
  | .nextAlloc w d' a b => s.relayer w = true ∧ d' = d ∧ a ≤ n ∧ n < a + b
  | .curAlloc d' _ a b => d' = d ∧ a ≤ n ∧ n < a + b
  | _ => False

/-- The ticket was allotted in the course of a history, or from its beginning. -/
def Allotted (c : Cfg) (G : St → Op → Prop) (g : St) (ops : List Op) (d : Door) (n : Nat) : Prop :=
  ((g.params d).1 ≤ n ∧ n < (g.params d).1 + (g.params d).2) ∨
    ∃ before op after s, ops = before ++ op :: after ∧ Run c G g before s ∧ Allots s d n op

/-- What root has to respect: the first ticket of the range it names is not before the range. -/
@[reducible] def Aligned : Op → Prop
  | .curAlloc _ t a _ => a ≤ t
  | _ => True

structure AI (P : Door → Nat → Prop) (outbox : List Msg) (pay : Nat → Option Wd) (seq : Door → Nat) (params nxt : Door → Nat × Nat) :
    Prop where
  out : ∀ m ∈ outbox, P m.door m.ticket
  held : ∀ i w, pay i = some w → P .main w.ticket
  cur : ∀ d n, seq d ≤ n → n < (params d).1 + (params d).2 → P d n
  next : ∀ d n, nxt d ≠ (0, 0) → (nxt d).1 ≤ n → n < (nxt d).1 + (nxt d).2 → P d n
  size : ∀ d, nxt d ≠ (0, 0) → (nxt d).2 ≠ 0

def AIs (P : Door → Nat → Prop) (s : St) : Prop := AI P s.outbox s.payments s.seq s.params s.next

variable {P : Door → Nat → Prop}

theorem ticket_ai {s : St} {d : Door} {t : St × Nat} (h : AIs P s) (ht : ticket s d = .ok t) :
    AIs P t.1 ∧ P d t.2 ∧ t.1.outbox = s.outbox ∧ t.1.payments = s.payments := by
  simp only [ticket, bind_ok, ensure_ok] at ht
  obtain ⟨_, _, _, _, ht⟩ := ht
  split at ht
  · simp only [bind_ok, ensure_ok, pure_ok] at ht
    obtain ⟨_, hne, _, _, rfl⟩ := ht
    have hz := h.size d hne.1
    refine ⟨⟨h.out, h.held, fun d' n h1 h2 => ?_, fun d' n h0 h1 h2 => ?_, fun d' h0 => ?_⟩,
      h.next d _ hne.1 (Nat.le_refl _) (by dsimp only; omega), rfl, rfl⟩
    · dsimp only at h1 h2
      by_cases e : d' = d
      · subst e
        rw [upd_same] at h1 h2
        exact h.next d' n hne.1 (by omega) h2
      · rw [upd_ne _ _ e] at h1 h2
        exact h.cur d' n h1 h2
    · dsimp only at h0 h1 h2
      by_cases e : d' = d
      · subst e
        rw [upd_same] at h0
        exact absurd rfl h0
      · rw [upd_ne _ _ e] at h0 h1 h2
        exact h.next d' n h0 h1 h2
    · dsimp only at h0 ⊢
      by_cases e : d' = d
      · subst e
        rw [upd_same] at h0
        exact absurd rfl h0
      · rw [upd_ne _ _ e] at h0 ⊢
        exact h.size d' h0
  · rename_i hend
    simp only [pure_ok] at ht
    subst ht
    refine ⟨⟨h.out, h.held, fun d' n h1 h2 => ?_, h.next, h.size⟩, h.cur d _ (Nat.le_refl _) (by omega), rfl, rfl⟩
    dsimp only at h1 h2
    by_cases e : d' = d
    · subst e
      rw [upd_same] at h1
      exact h.cur d' n (by omega) h2
    · rw [upd_ne _ _ e] at h1
      exact h.cur d' n h1 h2

theorem AI.send {o : List Msg} {pay : Nat → Option Wd} {seq : Door → Nat} {params next : Door → Nat × Nat}
    (h : AI P o pay seq params next) {m : Msg} (hm : P m.door m.ticket) : AI P (o ++ [m]) pay seq params next := by
  refine ⟨fun m' h' => ?_, h.held, h.cur, h.next, h.size⟩
  rcases List.mem_append.mp h' with h1 | h1
  · exact h.out m' h1
  · rw [List.mem_singleton] at h1
    rw [h1]
    exact hm

theorem payOne_ai {c : Cfg} {addr : Addr} {s : St} {id : Nat} (h : AIs P s) : AIs P (payOne c addr s id) := by
  unfold payOne
  split
  · exact h
  · rename_i w hw
    have h0 : AI P s.outbox (upd s.payments id none) s.seq s.params s.next := by
      refine ⟨h.out, fun i v hv => ?_, h.cur, h.next, h.size⟩
      rw [upd_apply] at hv
      split at hv
      · cases hv
      · exact h.held i v hv
    split
    · rename_i s1 hs
      obtain ⟨m, rfl, e1, e2⟩ := send_msg hs
      exact AI.send h0 (by rw [e1, e2]; exact h.held id w hw)
    · exact h0

theorem payAll_ai {c : Cfg} {addr : Addr} : ∀ (ids : List Nat) {s : St}, AIs P s → AIs P (ids.foldl (payOne c addr) s)
  | [], _, h => h
  | id :: ids, _, h => by
    rw [List.foldl_cons]
    exact payAll_ai ids (payOne_ai h)

theorem delayLoop_ai {c : Cfg} {addr : Addr} {limit : Nat} : ∀ (ks : List Nat) {s : St}, AIs P s →
    AIs P (delayLoop c addr limit ks s)
  | [], _, h => h
  | k :: ks, s, h => by
    unfold delayLoop
    split
    · split
      · exact payAll_ai _ (s := { s with sched := upd s.sched s.ptr ((s.sched s.ptr).drop k) }) h
      · exact delayLoop_ai ks (payAll_ai _ (s := { s with
          sched := upd s.sched s.ptr []
          ptr := s.ptr + 1 }) h)
    · exact h

theorem withdraw_ai {c : Cfg} {s s' : St} {who : Acct} {a : AssetId} {x : Nat} {dest : Addr} {tag : Option Nat}
    (hti : AIs P s) (h : withdraw c s who a x dest tag = .ok s') : AIs P s' := by
  simp only [withdraw, bind_ok, ensure_ok, okOr_ok] at h
  obtain ⟨_, _, _, _, y, _, addr, _, r, _, t, ht, h⟩ := h
  obtain ⟨h1, h2, h4, h5⟩ := ticket_ai (s := { s with ledger := r.1 }) hti ht
  split at h
  · simp only [delayPayment, bind_ok, ensure_ok, pure_ok] at h
    obtain ⟨_, _, _, _, rfl⟩ := h
    refine ⟨h1.out, fun i v hv => ?_, h1.cur, h1.next, h1.size⟩
    dsimp only at hv
    rw [upd_apply] at hv
    split at hv
    · cases hv
      exact h2
    · exact h1.held i v hv
  · obtain ⟨m, rfl, e1, e2⟩ := send_msg h
    exact AI.send h1 (by rw [e1, e2]; exact h2)

theorem signersOne_ai {s s' : St} {d : Door} (hti : AIs P s) (h : signersOne s d = .ok s') : AIs P s' := by
  simp only [signersOne, bind_ok, okOr_ok, pure_ok] at h
  obtain ⟨_, _, t, ht, rfl⟩ := h
  obtain ⟨h1, h2, _, _⟩ := ticket_ai hti ht
  exact AI.send h1 h2

theorem step_ai {c : Cfg} {s s' : St} {op : Op} (h : AIs P s) (hP : ∀ d n, Allots s d n op → P d n) (hf : Aligned op)
    (hs : step c s op = .ok s') : AIs P s' := by
  cases op with
  | withdraw w a x d t => exact withdraw_ai h hs
  | block ks ps x =>
    obtain ⟨e1, _, _, _, _, e6, _, _, e9, e10, e11, _⟩ := block_sched hs
    have h1 : AIs P (delayed c ks s) := by
      unfold delayed
      split
      · exact h
      · exact delayLoop_ai ks h
    obtain ⟨p, o, l, sc, q, e⟩ := delayed_frame c ks s
    have e12 : (delayed c ks s).seq = s.seq := by rw [e]
    have e13 : (delayed c ks s).params = s.params := by rw [e]
    have e14 : (delayed c ks s).next = s.next := by rw [e]
    unfold AIs at h1 ⊢
    rw [e12, e13, e14] at h1
    rw [e1, e6, e9, e10, e11]
    exact h1
  | nftTx d =>
    simp only [step, nftTx, bind_ok, okOr_ok, pure_ok] at hs
    obtain ⟨_, _, t, ht, rfl⟩ := hs
    obtain ⟨h1, h2, _, _⟩ := ticket_ai h ht
    exact AI.send h1 h2
  | signers =>
    simp only [step] at hs
    cases hs
    unfold signers
    split
    · exact h
    · rename_i s1 h1
      have := signersOne_ai h h1
      split
      · exact this
      · rename_i s2 h2
        exact signersOne_ai this h2
  | nextAlloc w d a b =>
    simp only [step, nextAlloc, bind_ok, ensure_ok, pure_ok] at hs
    obtain ⟨_, _, _, hr, _, hb, rfl⟩ := hs
    refine ⟨h.out, h.held, h.cur, fun d' n h0 h1 h2 => ?_, fun d' h0 => ?_⟩
    · dsimp only at h0 h1 h2
      by_cases e : d' = d
      · subst e
        rw [upd_same] at h1 h2
        exact hP d' n ⟨hr, rfl, h1, h2⟩
      · rw [upd_ne _ _ e] at h0 h1 h2
        exact h.next d' n h0 h1 h2
    · dsimp only at h0 ⊢
      by_cases e : d' = d
      · subst e
        rw [upd_same]
        exact hb.2.2
      · rw [upd_ne _ _ e] at h0 ⊢
        exact h.size d' h0
  | curAlloc d t a b =>
    simp only [step, curAlloc, bind_ok, ensure_ok, pure_ok] at hs
    obtain ⟨_, _, _, hb, rfl⟩ := hs
    refine ⟨h.out, h.held, fun d' n h1 h2 => ?_, h.next, h.size⟩
    dsimp only at h1 h2
    by_cases e : d' = d
    · subst e
      rw [upd_same] at h1 h2
      exact hP d' n ⟨rfl, Nat.le_trans hf h1, h2⟩
    · rw [upd_ne _ _ e] at h1 h2
      exact h.cur d' n h1 h2
  | submit w i g d =>
    simp only [step, submit, bind_ok, ensure_ok, pure_ok] at hs
    obtain ⟨_, _, _, _, _, hw, _, hn, _, _, rfl⟩ := hs
    exact h
  | challenge w g => cases hs; exact h
  | prune i =>
    simp only [step, prune, bind_ok, ensure_ok, pure_ok] at hs
    obtain ⟨_, hi, _, _, rfl⟩ := hs
    exact h
  | setFee d x =>
    simp only [step, bind_ok, ensure_ok, pure_ok] at hs
    obtain ⟨_, _, rfl⟩ := hs
    exact h
  | removeMap a =>
    simp only [step, bind_ok, okOr_ok, pure_ok] at hs
    obtain ⟨_, _, rfl⟩ := hs
    exact h
  | setRelayer w b => cases hs; exact h
  | setDelay a v => cases hs; exact h
  | setDoor d a => cases hs; exact h
  | setMap a cur => cases hs; exact h
  | ledger L => cases hs; exact h
  | setDec a n => cases hs; exact h

theorem run_ai {c : Cfg} {G : St → Op → Prop} (hG : ∀ s op, G s op → Aligned op) {s s' : St} {ops : List Op} (hr : Run c G s ops s')
    (h : AIs P s) (hP : ∀ before op after s1 d n, ops = before ++ op :: after → Run c G s before s1 → Allots s1 d n op → P d n) :
    AIs P s' := by
  induction hr with
  | nil => exact h
  | cons hg hs _ ih =>
    rename_i s s1 s' op ops _
    refine ih (step_ai h (fun d n ha => hP [] op ops s d n rfl .nil ha) (hG _ _ hg) hs) ?_
    intro before op' after s2 d n e hb ha
    exact hP (op :: before) op' after s2 d n (by rw [e]; rfl) (.cons hg hs hb) ha

/-- C221, partial: as long as root names ranges with a first ticket that is not before them, every ticket that an outgoing transaction
or a waiting withdrawal carries is in a range that a relayer or root has named in that history before. Missing: `C221_before_refuted`. -/
theorem C221_allotted_partial {c : Cfg} {G : St → Op → Prop} (hG : ∀ s op, G s op → Aligned op) {g s : St} (hg : Genesis g)
    (h0 : ∀ d, (g.params d).1 ≤ g.seq d) {ops : List Op} (hr : Run c G g ops s) :
    (∀ m ∈ s.outbox, Allotted c G g ops m.door m.ticket) ∧ (∀ i w, s.payments i = some w → Allotted c G g ops .main w.ticket) := by
  have hi : AIs (Allotted c G g ops) g := by
    refine ⟨?_, ?_, fun d n h1 h2 => .inl ⟨Nat.le_trans (h0 d) h1, h2⟩, fun d n h => absurd (hg.seq d) h, fun d h => absurd (hg.seq d) h⟩
    · rw [hg.outbox]
      exact (fun _ h => nomatch h)
    · intro i w hw
      rw [hg.payments] at hw
      cases hw
  have := run_ai hG hr hi (fun before op after s1 d n e hb ha => .inr ⟨before, op, after, s1, e, hb, ha⟩)
  exact ⟨this.out, this.held⟩

/-- Allotting tickets works exactly for relayers, for ranges that are not empty and begin neither before the next ticket nor before the
current range; it changes nothing but the range that comes next. -/
theorem C221_allot (c : Cfg) (s s' : St) (who : Acct) (d : Door) (start size : Nat) (h1 : start < U32) (h2 : size < U32) :
    step c s (.nextAlloc who d start size) = .ok s' ↔ s.relayer who = true ∧ s.seq d ≤ start ∧ (s.params d).1 ≤ start ∧ 0 < size ∧
      s' = { s with next := upd s.next d (start, size) } := by
  simp only [step, nextAlloc, bind_ok, ensure_ok, pure_ok]
  constructor
  · rintro ⟨_, _, _, hr, _, hb, rfl⟩
    exact ⟨hr, hb.1, hb.2.1, Nat.pos_of_ne_zero hb.2.2, rfl⟩
  · rintro ⟨hr, h3, h4, h5, rfl⟩
    exact ⟨(), ⟨h1, h2⟩, (), hr, (), ⟨h3, h4, Nat.pos_iff_ne_zero.1 h5⟩, rfl⟩

/-- A transaction is made exactly if a ticket of the current range is left, or the next range was allotted and begins elsewhere; it
carries the next ticket, or the first of the next range. No number runs over. -/
theorem C221_taken (c : Cfg) (s s' : St) (dest : Addr) (addr : Addr) (hd : s.door .nft = some addr) :
    step c s (.nftTx dest) = .ok s' ↔
      s.seq .nft + 1 < U32 ∧ (s.params .nft).1 + (s.params .nft).2 < U32 ∧
      ((s.seq .nft < (s.params .nft).1 + (s.params .nft).2 ∧
          s' = { s with
            seq := upd s.seq .nft (s.seq .nft + 1)
            outbox := s.outbox ++ [⟨.nft, s.seq .nft, addr, dest, none, s.fee .nft, .nft⟩] }) ∨
        ((s.params .nft).1 + (s.params .nft).2 ≤ s.seq .nft ∧ s.next .nft ≠ (0, 0) ∧ (s.next .nft).1 ≠ (s.params .nft).1 ∧
          (s.next .nft).1 + 1 < U32 ∧
          s' = { s with
            seq := upd s.seq .nft ((s.next .nft).1 + 1)
            params := upd s.params .nft (s.next .nft)
            next := upd s.next .nft (0, 0)
            outbox := s.outbox ++ [⟨.nft, (s.next .nft).1, addr, dest, none, s.fee .nft, .nft⟩] })) := by
  simp only [step, nftTx, ticket, bind_ok, okOr_ok, ensure_ok, pure_ok]
  constructor
  · rintro ⟨a, ha, t, ⟨_, h1, _, h2, ht⟩, rfl⟩
    rw [hd] at ha
    cases ha
    refine ⟨h1, h2, ?_⟩
    split at ht
    · rename_i hend
      simp only [bind_ok, ensure_ok, pure_ok] at ht
      obtain ⟨_, h3, _, h4, rfl⟩ := ht
      exact .inr ⟨hend, h3.1, h3.2, h4, rfl⟩
    · simp only [pure_ok] at ht
      subst ht
      exact .inl ⟨by omega, rfl⟩
  · rintro ⟨h1, h2, ⟨h3, rfl⟩ | ⟨h3, h4, h5, h6, rfl⟩⟩
    · refine ⟨addr, hd, ({ s with seq := upd s.seq .nft (s.seq .nft + 1) }, s.seq .nft), ⟨(), h1, (), h2, ?_⟩, rfl⟩
      rw [if_neg (by omega)]
      rfl
    · refine ⟨addr, hd, ({ s with
          params := upd s.params .nft (s.next .nft)
          next := upd s.next .nft (0, 0)
          seq := upd s.seq .nft ((s.next .nft).1 + 1) }, (s.next .nft).1), ⟨(), h1, (), h2, ?_⟩, rfl⟩
      rw [if_pos h3]
      simp only [bind_ok, ensure_ok, pure_ok]
      exact ⟨(), ⟨h4, h5⟩, (), h6, trivial⟩

/-- The range 3..6 follows 0..2. -/
example : Run cfg0 (fun _ op => Aligned op) g0 [.nextAlloc 8 .nft 3 4, .nftTx 1, .nftTx 1, .nftTx 1, .nftTx 1]
    (exec cfg0 g0 [.nextAlloc 8 .nft 3 4, .nftTx 1, .nftTx 1, .nftTx 1, .nftTx 1]) ∧
    (exec cfg0 g0 [.nextAlloc 8 .nft 3 4, .nftTx 1, .nftTx 1, .nftTx 1, .nftTx 1]).outbox.map (fun m => m.ticket) = [0, 1, 2, 3] ∧
    (∀ d, (g0.params d).1 ≤ g0.seq d) :=
  ⟨.cons trivial rfl (.cons trivial rfl (.cons trivial rfl (.cons trivial rfl (.cons trivial rfl .nil)))), by decide +kernel,
    fun _ => Nat.le_refl 0⟩

/-- Root names the range 100..109 and the ticket 5 by mistake: it is accepted, and the tickets from 5 on are used, none of which was
allotted. -/
theorem C221_before_refuted : ∃ s, Run cfg0 Any g0 [.curAlloc .nft 5 100 10, .nftTx 1] s ∧ (∃ m ∈ s.outbox, m.door = .nft ∧ m.ticket = 5) ∧
    ¬ Allotted cfg0 Any g0 [.curAlloc .nft 5 100 10, .nftTx 1] .nft 5 := by
  refine ⟨exec cfg0 g0 [.curAlloc .nft 5 100 10, .nftTx 1], .cons trivial rfl (.cons trivial rfl .nil), ?_, ?_⟩
  · exact ⟨⟨.nft, 5, 600, 1, none, 10, .nft⟩, by decide +kernel, rfl, rfl⟩
  · rintro (⟨_, h⟩ | ⟨before, op, after, s, e, _, ha⟩)
    · exact absurd h (by decide +kernel)
    · have hm : op ∈ ([.curAlloc .nft 5 100 10, .nftTx 1] : List Op) := by
        rw [e]
        exact List.mem_append_right _ (List.mem_cons_self ..)
      rw [List.mem_cons, List.mem_singleton] at hm
      rcases hm with rfl | rfl
      · have := ha.2.1
        omega
      · exact ha

end Verif.Xrpl
