import Verif.Xrpl.Sched
import Verif.Xrpl.Amount

/-!
# C43: delayed withdrawals
-/

namespace Verif.Xrpl

/-- C43: a withdrawal of at least the minimum set for its asset is written down under a new identifier, for the block `d` blocks later, with its
sender, destination and amount; nothing is sent. -/
theorem C43_scheduled {c : Cfg} {s s' : St} {who : Acct} {a : AssetId} {x y m d : Nat} {dest : Addr} {tag : Option Nat}
    (h : withdraw c s who a x dest tag = .ok s') (hy : saturate c s x a = .ok y) (hm : s.delay a = some (m, d)) (hle : m ≤ y) :
    ∃ w, s'.payments s.nextId = some w ∧ w.sender = who ∧ w.dest = dest ∧ w.tag = tag ∧ w.amount = y ∧ w.asset = a ∧
      w.fee = s.fee .main ∧ s.nextId ∈ s'.sched (min (s.now + d) (U32 - 1)) ∧ s'.outbox = s.outbox := by
  have hd : delayFor s a y = some d := by simp only [delayFor, hm, if_pos hle]
  obtain ⟨_, _, y', addr, r, t, hy', _, _, ht, h⟩ := withdraw_ok h
  rw [hy] at hy'
  cases hy'
  obtain ⟨p, n, q, e⟩ := ticket_frame ht
  rcases h with ⟨d', hd', h⟩ | ⟨hd', _⟩
  · rw [hd] at hd'
    cases hd'
    simp only [delayPayment, bind_ok, ensure_ok, pure_ok] at h
    obtain ⟨_, _, _, _, rfl⟩ := h
    rw [e]
    refine ⟨_, upd_same _ _ _, rfl, rfl, rfl, rfl, rfl, rfl, ?_, rfl⟩
    dsimp only
    rw [upd_same]
    exact List.mem_append_right _ List.mem_cons_self
  · rw [hd] at hd'; cases hd'

/-- C43: any other withdrawal is sent at once, and no delayed withdrawal is written down. -/
theorem C43_immediate {c : Cfg} {s s' : St} {who : Acct} {a : AssetId} {x y : Nat} {dest : Addr} {tag : Option Nat}
    (h : withdraw c s who a x dest tag = .ok s') (hy : saturate c s x a = .ok y)
    (hn : ∀ m d, s.delay a = some (m, d) → y < m) :
    s'.payments = s.payments ∧ s'.sched = s.sched ∧ ∃ msg, s'.outbox = s.outbox ++ [msg] ∧ msg.dest = dest := by
  have hd : delayFor s a y = none := by
    unfold delayFor
    split
    · rename_i m d e
      have := hn m d e
      rw [if_neg (by omega)]
    · rfl
  obtain ⟨_, _, y', addr, r, t, hy', _, _, ht, h⟩ := withdraw_ok h
  rw [hy] at hy'
  cases hy'
  obtain ⟨p, n, q, e⟩ := ticket_frame ht
  rcases h with ⟨d', hd', _⟩ | ⟨_, h⟩
  · rw [hd] at hd'; cases hd'
  · cases hc : r.2 with
    | none =>
      simp only [send, hc, bind_ok, ensure_ok, pure_ok] at h
      obtain ⟨_, _, rfl⟩ := h
      rw [e]
      exact ⟨rfl, rfl, _, rfl, rfl⟩
    | some cur =>
      simp only [send, hc, bind_ok, ensure_ok, pure_ok] at h
      obtain ⟨v, hv, _, _, rfl⟩ := h
      rw [e]
      exact ⟨rfl, rfl, _, rfl, rfl⟩

/-- C43: what the end of a block does. The delayed withdrawals `q`, each scheduled for this block or an earlier one, are removed
and turned into transactions, in order, each once; no other is touched. -/
theorem C43_block {c : Cfg} {G : St → Op → Prop} {g s s' : St} {ks ps : List Nat} {x : Hash → Bool} (hg : Reach c G g s)
    (h : block c s ks ps x = .ok s') :
    ∃ q addr, q.Nodup ∧ (∀ i ∈ q, ∃ b w, i ∈ s.sched b ∧ b ≤ s.now ∧ s.payments i = some w) ∧
      (∀ i, s'.payments i = if i ∈ q then none else s.payments i) ∧
      s'.outbox = s.outbox ++ q.filterMap (fun i => (s.payments i).bind (msgOf c s.dec addr)) ∧
      (q ≠ [] → s.door .main = some addr) := by
  obtain ⟨q, addr, hq, hd⟩ := delayed_proc (c := c) (ks := ks) hg.sis
  obtain ⟨e1, _, _, _, _, e6, _⟩ := block_sched h
  refine ⟨q, addr, hq.nodup, ?_, ?_, ?_, hd⟩
  · intro i hi
    obtain ⟨b, h1, h2⟩ := hq.due i hi
    cases hp : s.payments i with
    | none => exact absurd hp (hg.sis.si.live b i h1)
    | some w => exact ⟨b, w, h1, h2, rfl⟩
  · intro i; rw [e1, hq.pay]
  · rw [e6, hq.outbox]; rfl

/-- How one operation treats a delayed withdrawal. -/
theorem step_payment {c : Cfg} {s s' : St} {op : Op} (hsi : SIs s) (hs : step c s op = .ok s') (i : Nat) (hi : i < s.nextId) :
    s.nextId ≤ s'.nextId ∧ (s'.payments i = none ∨ s'.payments i = s.payments i) ∧
      (s'.payments i ≠ none → ∀ b, i ∈ s.sched b → i ∈ s'.sched b) := by
  rcases step_sched hs with ⟨ks, ps, x, rfl⟩ | ⟨t, d, w, h1, e1, e2, e3, e4, e5, hop⟩ | ⟨e1, e2, e3, e4, e5⟩
  · obtain ⟨e1, e2, e3, e4, _⟩ := block_sched hs
    obtain ⟨q, addr, hq, _⟩ := delayed_proc (c := c) (ks := ks) hsi
    refine ⟨by omega, ?_, ?_⟩
    · rw [e1, hq.pay]
      dsimp only
      split
      · exact Or.inl rfl
      · exact Or.inr rfl
    · rw [e1, e2, hq.pay]
      dsimp only
      intro hn b hb
      split at hn
      · exact absurd rfl hn
      · rename_i hnq
        exact hq.keep i b hb hnq
  · simp only [delayPayment, bind_ok, ensure_ok, pure_ok] at h1
    obtain ⟨_, _, _, _, rfl⟩ := h1
    dsimp only
    rw [e5, e1, e2, upd_ne _ _ (by omega)]
    refine ⟨by omega, Or.inr rfl, fun _ b hb => ?_⟩
    rw [upd_apply]
    split
    · rename_i e; rw [← e]; exact List.mem_append_left _ hb
    · exact hb
  · rw [e1, e2, e5]
    exact ⟨Nat.le_refl _, Or.inr rfl, fun _ _ h => h⟩

/-- C43: a delayed withdrawal that was carried out (or whose identifier was used) never comes back: it is executed at most
once. -/
theorem C43_once {c : Cfg} {G : St → Op → Prop} {g s s' : St} {ops : List Op} {i : Nat} (hg : Reach c G g s)
    (hr : Run c G s ops s') (hi : i < s.nextId) (hp : s.payments i = none) : s'.payments i = none := by
  induction hr with
  | nil => exact hp
  | cons hG hs _ ih =>
    obtain ⟨h1, h2, _⟩ := step_payment hg.sis hs i hi
    refine ih (.step hg hG hs) (by omega) ?_
    rcases h2 with h | h
    · exact h
    · rw [h, hp]

/-- C43: a delayed withdrawal waits unchanged, on its block, until it is executed; the processing never passes its block before
that. -/
theorem C43_waits {c : Cfg} {G : St → Op → Prop} {g s s' : St} {ops : List Op} {i b : Nat} {w : Wd} (hg : Reach c G g s)
    (hr : Run c G s ops s') (hi : i ∈ s.sched b) (hp : s.payments i = some w) :
    s'.payments i = none ∨ (s'.payments i = some w ∧ i ∈ s'.sched b ∧ s'.ptr ≤ b) := by
  induction hr with
  | nil =>
    exact Or.inr ⟨hp, hi, hg.sis.si.ptr b (fun e => by rw [e] at hi; cases hi)⟩
  | @cons s s1 s2 op ops hG hs hrest ih =>
    have hlt : i < s.nextId := by
      by_contra hge
      have := hg.sis.si.ids i (by omega)
      rw [hp] at this
      cases this
    obtain ⟨h1, h2, h3⟩ := step_payment hg.sis hs i hlt
    rcases h2 with h | h
    · exact Or.inl (C43_once (.step hg hG hs) hrest (by omega) h)
    · rw [hp] at h
      exact ih (.step hg hG hs) (h3 (by rw [h]; simp) b hi) h

/-! ## Progress -/

/-- The blocks and payments before a block. -/
def work (f : Nat → List Nat) (p : Nat) : Nat → Nat
  | 0 => 0
  | n + 1 => 1 + (f p).length + work f (p + 1) n

/-- How much has to be done before the withdrawal `i` of block `b` has its turn: one unit for every block from the pointer to `b`
and for every payment scheduled earlier. -/
def turn (s : St) (b i : Nat) : Nat := work s.sched s.ptr (b - s.ptr) + (s.sched b).idxOf i

theorem work_le {f f' : Nat → List Nat} : ∀ (n p : Nat), (∀ q, p ≤ q → q < p + n → (f' q).length ≤ (f q).length) →
    work f' p n ≤ work f p n
  | 0, _, _ => Nat.le_refl _
  | n + 1, p, h => by
    have h1 := h p (Nat.le_refl _) (by omega)
    have h2 := work_le n (p + 1) (fun q h3 h4 => h q (by omega) (by omega))
    simp only [work]
    omega

theorem work_lt {f f' : Nat → List Nat} {n p : Nat} (h : ∀ q, (f' q).length ≤ (f q).length) (hn : 0 < n)
    (h0 : (f' p).length < (f p).length) : work f' p n < work f p n := by
  cases n with
  | zero => omega
  | succ n =>
    have h2 := work_le n (p + 1) (fun q _ _ => h q)
    simp only [work]
    omega

theorem work_shift (f : Nat → List Nat) {b : Nat} : ∀ (j p : Nat), p + j ≤ b →
    work f (p + j) (b - (p + j)) + j ≤ work f p (b - p)
  | 0, p, _ => by simp
  | j + 1, p, h => by
    have h1 := work_shift f (b := b) j (p + 1) (by omega)
    have e : b - p = (b - (p + 1)) + 1 := by omega
    rw [e]
    simp only [work]
    have e2 : p + 1 + j = p + (j + 1) := by omega
    rw [e2] at h1
    omega

theorem idxOf_drop {l : List Nat} (hnd : l.Nodup) {i : Nat} : ∀ (j : Nat), i ∈ l.drop j → (l.drop j).idxOf i + j = l.idxOf i := by
  induction l with
  | nil => intro j h; simp at h
  | cons a l ih =>
    intro j h
    cases j with
    | zero => simp
    | succ j =>
      rw [List.drop_succ_cons] at h ⊢
      have h1 := ih (List.nodup_cons.mp hnd).2 j h
      have hne : a ≠ i := by
        rintro rfl
        exact (List.nodup_cons.mp hnd).1 (List.mem_of_mem_drop h)
      rw [List.idxOf_cons_ne _ hne]
      omega

/-- Processing never moves a withdrawal back. -/
theorem Proc.turn_le {c : Cfg} {addr : Addr} {limit : Nat} {s s' : St} {q : List Nat} (h : Proc c addr limit s s' q)
    (hsi : SI s.payments s.sched s.ptr s.now s.nextId) {b i : Nat} (hi : i ∈ s'.sched b) : turn s' b i ≤ turn s b i := by
  have hp : s'.ptr ≤ b := h.si.ptr b (fun e => by rw [e] at hi; cases hi)
  have h1 := h.ptr.1
  have h2 := work_shift s.sched (b := b) (s'.ptr - s.ptr) s.ptr (by omega)
  have e : s.ptr + (s'.ptr - s.ptr) = s'.ptr := by omega
  rw [e] at h2
  have h3 : work s'.sched s'.ptr (b - s'.ptr) ≤ work s.sched s'.ptr (b - s'.ptr) :=
    work_le _ _ (fun q _ _ => by
      obtain ⟨j, hj⟩ := h.sub q
      rw [hj, List.length_drop]; omega)
  obtain ⟨j, hj⟩ := h.sub b
  have hi' := hi
  rw [hj] at hi'
  have h4 := idxOf_drop (hsi.snd b) j hi'
  simp only [turn]
  rw [hj]
  omega

theorem delayLoop_progress {c : Cfg} {addr : Addr} {limit k : Nat} {ks : List Nat} {s : St}
    (hsi : SI s.payments s.sched s.ptr s.now s.nextId) (hl : s.ptr ≤ limit) (hk : 1 ≤ k) {b i : Nat}
    (hi : i ∈ (delayLoop c addr limit (k :: ks) s).sched b) : turn (delayLoop c addr limit (k :: ks) s) b i < turn s b i := by
  unfold delayLoop at hi ⊢
  rw [if_pos hl] at hi ⊢
  split
  · rename_i hlen
    rw [if_pos hlen] at hi
    have hP := proc_take (c := c) (addr := addr) (limit := limit) hsi hl k s.ptr (Or.inl rfl)
    obtain ⟨_, _, _, h4, h5⟩ := payAll_spec c addr ((s.sched s.ptr).take k)
      { s with sched := upd s.sched s.ptr ((s.sched s.ptr).drop k) } ((hsi.snd _).sublist (List.take_sublist _ _))
    have hp := hP.si.ptr b (fun e => by rw [e] at hi; cases hi)
    generalize ((s.sched s.ptr).take k).foldl (payOne c addr)
      { s with sched := upd s.sched s.ptr ((s.sched s.ptr).drop k) } = t at hi hP h4 h5 hp ⊢
    simp only [turn]
    rw [h5] at hp
    rw [h4] at hi
    rw [h5, h4]
    dsimp only at hi hp ⊢
    by_cases e : b = s.ptr
    · subst e
      rw [upd_same] at hi ⊢
      have := idxOf_drop (hsi.snd s.ptr) k hi
      simp only [Nat.sub_self, work]
      omega
    · rw [upd_ne _ _ e]
      have := work_lt (f := s.sched) (f' := upd s.sched s.ptr ((s.sched s.ptr).drop k)) (n := b - s.ptr) (p := s.ptr)
        (fun q => by
          rw [upd_apply]
          split
          · rename_i e; rw [e, List.length_drop]; omega
          · exact Nat.le_refl _) (by omega) (by rw [upd_same, List.length_drop]; omega)
      omega
  · rename_i hlen
    rw [if_neg hlen] at hi
    have hP := proc_take (c := c) (addr := addr) (limit := limit) hsi hl (s.sched s.ptr).length (s.ptr + 1)
      (Or.inr ⟨rfl, List.drop_length⟩)
    rw [List.take_length, List.drop_length] at hP
    obtain ⟨p, o, l, e⟩ := payAll_frame c addr (s.sched s.ptr)
      { s with
        sched := upd s.sched s.ptr []
        ptr := s.ptr + 1 }
    generalize (s.sched s.ptr).foldl (payOne c addr) { s with
        sched := upd s.sched s.ptr []
        ptr := s.ptr + 1 } = t at hi hP e ⊢
    have hsi' : SI t.payments t.sched t.ptr t.now t.nextId := by
      have h1 : t.now = s.now := by rw [e]
      have h2 : t.nextId = s.nextId := by rw [e]
      rw [h1, h2]; exact hP.si
    obtain ⟨q, hq⟩ := delayLoop_proc c addr limit ks hsi'
    have h1 := hq.turn_le hsi' hi
    obtain ⟨j, hj⟩ := hq.sub b
    rw [hj] at hi
    have hi2 := List.mem_of_mem_drop hi
    have h2 : turn t b i < turn s b i := by
      have hp := hsi'.ptr b (fun e => by rw [e] at hi2; cases hi2)
      have e1 : t.ptr = s.ptr + 1 := by rw [e]
      have e2 : t.sched = upd s.sched s.ptr [] := by rw [e]
      simp only [turn]
      rw [e1] at hp ⊢
      rw [e2] at hi2 ⊢
      have hb : b ≠ s.ptr := by omega
      rw [upd_ne _ _ hb]
      have h3 := work_shift s.sched (b := b) 1 s.ptr hp
      have h4 : work (upd s.sched s.ptr []) (s.ptr + 1) (b - (s.ptr + 1)) ≤ work s.sched (s.ptr + 1) (b - (s.ptr + 1)) :=
        work_le _ _ (fun q _ _ => by
          rw [upd_apply]
          split
          · simp
          · exact Nat.le_refl _)
      omega
    omega

/-- A block whose idle phase can carry out at least one payment. -/
def good : Op → Bool
  | .block (k :: _) _ _ => decide (1 ≤ k)
  | _ => false

theorem step_turn {c : Cfg} {s s' : St} {op : Op} (hsi : SIs s) (hs : step c s op = .ok s') {b i : Nat} (hb : b ≤ s.now)
    (hi : i ∈ s.sched b) (hi' : i ∈ s'.sched b) (hd : s.door .main ≠ none) :
    turn s' b i + (if good op = true then 1 else 0) ≤ turn s b i := by
  rcases step_sched hs with ⟨ks, ps, x, rfl⟩ | ⟨t, d, w, h1, e1, e2, e3, e4, e5, hop⟩ | ⟨e1, e2, e3, e4, e5⟩
  · obtain ⟨_, e2, e3, _⟩ := block_sched hs
    have et : turn s' b i = turn (delayed c ks s) b i := by simp only [turn, e2, e3]
    rw [e2] at hi'
    rw [et]
    by_cases hg : good (.block ks ps x) = true
    · rw [if_pos hg]
      cases ks with
      | nil => cases hg
      | cons k ks =>
        have hk : 1 ≤ k := of_decide_eq_true hg
        unfold delayed at hi' ⊢
        cases hdoor : s.door .main with
        | none => exact absurd hdoor hd
        | some addr =>
          simp only [hdoor] at hi' ⊢
          have := delayLoop_progress hsi.si (limit := min s.now (s.ptr + c.blockLimit)) (by have := hsi.ptr; omega) hk hi'
          omega
    · rw [if_neg hg]
      obtain ⟨q, addr, hq, _⟩ := delayed_proc (c := c) (ks := ks) hsi
      exact hq.turn_le hsi.si hi'
  · have hg : good op = false := by
      obtain ⟨_, _, _, _, _, rfl⟩ := hop
      rfl
    rw [hg]
    simp only [delayPayment, bind_ok, ensure_ok, pure_ok] at h1
    obtain ⟨_, _, _, _, rfl⟩ := h1
    simp only [turn]
    rw [e2, e3, e4, e5]
    have hB : b ≤ min (s.now + d) (U32 - 1) := by
      have := hsi.now
      omega
    generalize min (s.now + d) (U32 - 1) = B at hB ⊢
    have h2 : work (upd s.sched B (s.sched B ++ [s.nextId])) s.ptr (b - s.ptr) ≤ work s.sched s.ptr (b - s.ptr) :=
      work_le _ _ (fun q h3 h4 => by rw [upd_ne _ _ (by omega)])
    have h3 : (upd s.sched B (s.sched B ++ [s.nextId]) b).idxOf i = (s.sched b).idxOf i := by
      rw [upd_apply]
      split
      · rename_i e
        rw [← e, List.idxOf_append_of_mem hi]
      · rfl
    rw [h3]
    simp
    exact h2
  · have et : turn s' b i = turn s b i := by simp only [turn, e2, e3]
    have hg : good op = false := by
      cases op <;> first | rfl | skip
      rename_i ks ps x
      exfalso
      obtain ⟨_, _, _, _, f5, _⟩ := block_sched hs
      omega
    rw [et, hg]
    simp

/-- C43: a delayed withdrawal whose block has come is executed after at most as many blocks with idle capacity as there is work
before it (`turn`), as long as the door address is set. With `C43_block`: that is when its transaction is handed over. -/
theorem C43_live {c : Cfg} {G : St → Op → Prop} {g s s' : St} {ops : List Op} {i b : Nat} (hg : Reach c G g s)
    (hG : ∀ s op, G s op → s.door .main ≠ none) (hr : Run c G s ops s') (hi : i ∈ s.sched b) (hb : b ≤ s.now)
    (hn : turn s b i < ops.countP good) : s'.payments i = none := by
  have key : s'.payments i = none ∨ (i ∈ s'.sched b ∧ turn s' b i + ops.countP good ≤ turn s b i) := by
    clear hn
    induction hr with
    | nil => exact Or.inr ⟨hi, by simp⟩
    | @cons s s1 s2 op ops hgop hs hrest ih =>
      have hsi := hg.sis
      have hlt : i < s.nextId := by
        by_contra hge
        exact hsi.si.live b i hi (hsi.si.ids i (by omega))
      obtain ⟨h1, h2, h3⟩ := step_payment hsi hs i hlt
      by_cases hp : s1.payments i = none
      · exact Or.inl (C43_once (.step hg hgop hs) hrest (by omega) hp)
      · have hi1 := h3 hp b hi
        have hnow : s.now ≤ s1.now := by
          rcases step_sched hs with ⟨ks, ps, x, rfl⟩ | ⟨t, d, w, k1, e1, e2, e3, e4, e5, _⟩ | ⟨e1, e2, e3, e4, e5⟩
          · obtain ⟨_, _, _, _, f5, _⟩ := block_sched hs
            omega
          · simp only [delayPayment, bind_ok, ensure_ok, pure_ok] at k1
            obtain ⟨_, _, _, _, rfl⟩ := k1
            dsimp only
            omega
          · omega
        have h4 := step_turn hsi hs hb hi hi1 (hG s op hgop)
        rcases ih (.step hg hgop hs) hi1 (by omega) with h | ⟨h, h5⟩
        · exact Or.inl h
        · refine Or.inr ⟨h, ?_⟩
          rw [List.countP_cons]
          omega
  rcases key with h | ⟨_, h⟩
  · exact h
  · omega

/-! ## Amounts of delayed withdrawals -/

/-- The amounts waiting can be sent without loss. -/
def PayExact (c : Cfg) (s : St) : Prop :=
  ∀ i w, s.payments i = some w → (w.cur ≠ none → Exact w.amount) ∧ (w.cur = none ↔ w.asset = c.xrp)

theorem step_exact {c : Cfg} {s s' : St} {op : Op} (hsi : SIs s)
    (h : PayExact c s) (hs : step c s op = .ok s') : PayExact c s' := by
  intro i w hw
  by_cases hi : i < s.nextId
  · obtain ⟨_, h2, _⟩ := step_payment hsi hs i hi
    rcases h2 with h2 | h2
    · rw [h2] at hw; cases hw
    · rw [h2] at hw; exact h i w hw
  · cases op with
    | withdraw who a x d t =>
      obtain ⟨_, _, y, addr, r, t, hy, _, hr, ht, hh⟩ := withdraw_ok hs
      obtain ⟨p, n, q, e⟩ := ticket_frame ht
      rcases hh with ⟨d, _, hh⟩ | ⟨_, hh⟩
      · simp only [delayPayment, bind_ok, ensure_ok, pure_ok] at hh
        obtain ⟨_, _, _, _, rfl⟩ := hh
        rw [e] at hw
        dsimp only at hw
        rw [upd_apply] at hw
        split at hw
        · cases hw
          dsimp only
          obtain ⟨h1, h2⟩ := take_cur hr
          refine ⟨fun hne => ?_, fun hn => ?_, h1⟩
          · refine saturate_exact (fun e => hne (h1 e)) hy
          · by_contra hne
            exact (h2 hne).2 hn
        · exact h i w hw
      · obtain ⟨o, rfl⟩ := send_frame hh
        rw [e] at hw
        exact h i w hw
    | block ks ps x =>
      have h1 : s'.payments i = none := by
        obtain ⟨q, addr, hq, _⟩ := delayed_proc (c := c) (ks := ks) hsi
        obtain ⟨e1, _⟩ := block_sched hs
        rw [e1, hq.pay]
        dsimp only
        rw [hsi.si.ids i (by omega), ite_self]
      rw [h1] at hw; cases hw
    | _ =>
      exfalso
      have : s'.payments = s.payments := by
        rcases step_sched hs with ⟨ks, ps, x, e⟩ | ⟨t, d, w, h1, e1, e2, e3, e4, e5, _, _, _, _, _, hop⟩ | ⟨e1, _⟩
        · cases e
        · cases hop
        · exact e1
      rw [this, hsi.si.ids i (by omega)] at hw
      cases hw

theorem Reach.exact {c : Cfg} {G : St → Op → Prop} {g s : St} (h : Reach c G g s) : PayExact c s := by
  induction h with
  | init hg => intro i w hw; rw [hg.payments] at hw; cases hw
  | step hr _ hs ih => exact step_exact hr.sis ih hs

/-- C41 for delayed withdrawals of issued currencies: the transaction handed over later has, in the decimals of the asset at
that time, exactly the value of the amount that was taken. -/
theorem C41_delayed {c : Cfg} {G : St → Op → Prop} {g s : St} {i : Nat} {w : Wd} {addr : Addr} {m : Msg} {cur : Cur}
    (hg : Reach c G g s) (hw : s.payments i = some w) (hc : w.cur = some cur) (hm : msgOf c s.dec addr w = some m) :
    ∃ v e, m = ⟨.main, w.ticket, addr, w.dest, w.tag, w.fee, .issued v e cur⟩ ∧ Worth v e (s.dec w.asset) w.amount ∧
      v < 10 ^ 16 := by
  have hE := (hg.exact i w hw).1 (by rw [hc]; simp)
  simp only [msgOf, hc] at hm
  split at hm
  · rename_i h
    cases hm
    have h1 : mantExp w.amount (s.dec w.asset) = .ok ((shrink w.amount).1, ((shrink w.amount).2 : Int) - s.dec w.asset) := by
      unfold mantExp
      rw [ensure_pos h.1]
      rfl
    obtain ⟨h2, h3⟩ := mantExp_worth h1 hE
    exact ⟨_, _, rfl, h2, h3⟩
  · cases hm

end Verif.Xrpl
