import Verif.Xrpl.Frames

/-!
# The schedule of delayed withdrawals
-/

namespace Verif.Xrpl

structure SI (pay : Nat → Option Wd) (sched : Nat → List Nat) (ptr now nextId : Nat) : Prop where
  live : ∀ b, ∀ i ∈ sched b, pay i ≠ none
  ids : ∀ i, nextId ≤ i → pay i = none
  uniq : ∀ i b b', i ∈ sched b → i ∈ sched b' → b = b'
  snd : ∀ b, (sched b).Nodup
  pend : ∀ i, pay i ≠ none → ∃ b, i ∈ sched b
  ptr : ∀ b, sched b ≠ [] → ptr ≤ b

/-- The first payments of a block are taken out. -/
theorem SI.drop {pay : Nat → Option Wd} {sched : Nat → List Nat} {ptr now n : Nat} (h : SI pay sched ptr now n) (b k : Nat) :
    SI (fun i => if i ∈ (sched b).take k then none else pay i) (upd sched b ((sched b).drop k)) ptr now n := by
  have hsub : ∀ b' i, i ∈ upd sched b ((sched b).drop k) b' → i ∈ sched b' := by
    intro b' i hi
    rw [upd_apply] at hi
    split at hi
    · rename_i e; subst e; exact List.mem_of_mem_drop hi
    · exact hi
  refine ⟨?_, ?_, ?_, ?_, ?_, ?_⟩
  · intro b' i hi
    have h1 := hsub b' i hi
    rw [if_neg]
    · exact h.live b' i h1
    · intro ht
      have := h.uniq i b' b h1 (List.mem_of_mem_take ht)
      subst this
      rw [upd_same] at hi
      have hnd := h.snd b'
      rw [← List.take_append_drop k (sched b')] at hnd
      exact (List.nodup_append.mp hnd).2.2 i ht i hi rfl
  · intro i hi
    rw [h.ids i hi, ite_self]
  · intro i b' b'' h1 h2
    exact h.uniq i b' b'' (hsub _ _ h1) (hsub _ _ h2)
  · intro b'
    rw [upd_apply]
    split
    · exact (h.snd b).sublist (List.drop_sublist _ _)
    · exact h.snd b'
  · intro i hi
    split at hi
    · exact absurd rfl hi
    · rename_i hn
      obtain ⟨b', hb'⟩ := h.pend i hi
      refine ⟨b', ?_⟩
      rw [upd_apply]
      split
      · rename_i e
        subst e
        rw [← List.take_append_drop k (sched b')] at hb'
        rcases List.mem_append.mp hb' with h1 | h1
        · exact absurd h1 hn
        · exact h1
      · exact hb'
  · intro b' hb'
    refine h.ptr b' ?_
    intro e
    obtain ⟨i, hi⟩ := List.exists_mem_of_ne_nil _ hb'
    have := hsub b' i hi
    rw [e] at this
    cases this

theorem SI.advance {pay : Nat → Option Wd} {sched : Nat → List Nat} {ptr now n : Nat} (h : SI pay sched ptr now n)
    (he : sched ptr = []) : SI pay sched (ptr + 1) now n :=
  ⟨h.live, h.ids, h.uniq, h.snd, h.pend, fun b hb => by
    have h1 := h.ptr b hb
    have h2 : b ≠ ptr := by rintro rfl; exact hb he
    omega⟩

/-! ## Processing -/

/-- The transaction a withdrawal becomes, if it can be built. -/
def msgOf (c : Cfg) (dec : AssetId → Nat) (addr : Addr) (w : Wd) : Option Msg :=
  match w.cur with
  | none => some ⟨.main, w.ticket, addr, w.dest, w.tag, w.fee, .xrp (min w.amount (U64 - 1))⟩
  | some cur =>
    if dec w.asset < 128 ∧ c.codec (shrink w.amount).1 (((shrink w.amount).2 : Int) - dec w.asset) = true then
      some ⟨.main, w.ticket, addr, w.dest, w.tag, w.fee,
        .issued (shrink w.amount).1 (((shrink w.amount).2 : Int) - dec w.asset) cur⟩
    else none

theorem send_eq (c : Cfg) (s : St) (addr : Addr) (w : Wd) : match msgOf c s.dec addr w with
    | some m => send c s addr w = .ok { s with outbox := s.outbox ++ [m] }
    | none => ∃ e, send c s addr w = .error e := by
  unfold msgOf send
  cases w.cur with
  | none => rfl
  | some cur =>
    simp only
    by_cases h1 : s.dec w.asset < 128
    · have hm : mantExp w.amount (s.dec w.asset) = .ok ((shrink w.amount).1, ((shrink w.amount).2 : Int) - s.dec w.asset) := by
        unfold mantExp
        rw [ensure_pos h1]
        rfl
      by_cases h2 : c.codec (shrink w.amount).1 (((shrink w.amount).2 : Int) - s.dec w.asset) = true
      · rw [if_pos ⟨h1, h2⟩, hm]
        simp only [bind, Except.bind, ensure, if_pos h2]
        rfl
      · rw [if_neg (fun h => h2 h.2), hm]
        simp only [bind, Except.bind, ensure, if_neg h2]
        exact ⟨_, rfl⟩
    · rw [if_neg (fun h => h1 h.1)]
      simp only [mantExp, bind, Except.bind, ensure, if_neg h1]
      exact ⟨_, rfl⟩

/-- The transactions of the payments `ids`. -/
def msgs (c : Cfg) (dec : AssetId → Nat) (addr : Addr) (pay : Nat → Option Wd) (ids : List Nat) : List Msg :=
  ids.filterMap (fun i => (pay i).bind (msgOf c dec addr))

theorem payOne_spec (c : Cfg) (addr : Addr) (s : St) (id : Nat) :
    (payOne c addr s id).payments = upd s.payments id none ∧
    (payOne c addr s id).outbox = s.outbox ++ msgs c s.dec addr s.payments [id] ∧
    (payOne c addr s id).dec = s.dec ∧ (payOne c addr s id).sched = s.sched ∧ (payOne c addr s id).ptr = s.ptr := by
  unfold payOne
  cases hp : s.payments id with
  | none =>
    simp only
    refine ⟨?_, by simp [msgs, hp], trivial, trivial, trivial⟩
    funext i
    rw [upd_apply]
    by_cases e : i = id
    · rw [if_pos e, e]; exact hp
    · rw [if_neg e]
  | some w =>
    have := send_eq c { s with payments := upd s.payments id none } addr w
    simp only [msgs, List.filterMap_cons, List.filterMap_nil, hp, Option.bind]
    cases hm : msgOf c s.dec addr w with
    | some m =>
      simp only [hm] at this
      simp only [this]
      exact ⟨trivial, trivial, trivial, trivial, trivial⟩
    | none =>
      simp only [hm] at this
      obtain ⟨e, he⟩ := this
      simp only [he]
      exact ⟨trivial, by simp, trivial, trivial, trivial⟩

theorem payAll_spec (c : Cfg) (addr : Addr) : ∀ (ids : List Nat) (s : St), ids.Nodup →
    (ids.foldl (payOne c addr) s).payments = (fun i => if i ∈ ids then none else s.payments i) ∧
    (ids.foldl (payOne c addr) s).outbox = s.outbox ++ msgs c s.dec addr s.payments ids ∧
    (ids.foldl (payOne c addr) s).dec = s.dec ∧ (ids.foldl (payOne c addr) s).sched = s.sched ∧
    (ids.foldl (payOne c addr) s).ptr = s.ptr
  | [], s, _ => ⟨by simp, by simp [msgs], rfl, rfl, rfl⟩
  | id :: ids, s, hnd => by
    obtain ⟨hn, hnd'⟩ := List.nodup_cons.mp hnd
    obtain ⟨h1, h2, h3, h4, h5⟩ := payOne_spec c addr s id
    obtain ⟨k1, k2, k3, k4, k5⟩ := payAll_spec c addr ids (payOne c addr s id) hnd'
    rw [List.foldl_cons]
    refine ⟨?_, ?_, by rw [k3, h3], by rw [k4, h4], by rw [k5, h5]⟩
    · rw [k1, h1]
      funext i
      rw [upd_apply]
      by_cases e : i = id
      · simp [e]
      · simp [e]
    · rw [k2, h2, h3, List.append_assoc]
      congr 1
      have : msgs c s.dec addr (payOne c addr s id).payments ids = msgs c s.dec addr s.payments ids := by
        unfold msgs
        rw [h1]
        refine List.filterMap_congr ?_
        intro i hi
        rw [upd_ne _ _ (by rintro rfl; exact hn hi)]
      rw [this]
      unfold msgs
      rw [← List.filterMap_append]
      rfl

/-- What the processing of delayed payments does: the payments `q` are executed, in order. -/
structure Proc (c : Cfg) (addr : Addr) (limit : Nat) (s s' : St) (q : List Nat) : Prop where
  nodup : q.Nodup
  due : ∀ i ∈ q, ∃ b, i ∈ s.sched b ∧ b ≤ limit
  pay : s'.payments = fun i => if i ∈ q then none else s.payments i
  outbox : s'.outbox = s.outbox ++ msgs c s.dec addr s.payments q
  dec : s'.dec = s.dec
  si : SI s'.payments s'.sched s'.ptr s.now s.nextId
  ptr : s.ptr ≤ s'.ptr ∧ s'.ptr ≤ max s.ptr (limit + 1)
  keep : ∀ i b, i ∈ s.sched b → i ∉ q → i ∈ s'.sched b
  sub : ∀ b, ∃ j, s'.sched b = (s.sched b).drop j

theorem Proc.trans {c : Cfg} {addr : Addr} {limit : Nat} {s s1 s2 : St} {q q' : List Nat} (h1 : Proc c addr limit s s1 q)
    (hsi : SI s.payments s.sched s.ptr s.now s.nextId)
    (h2 : Proc c addr limit s1 s2 q') (hn : s1.now = s.now) (hi : s1.nextId = s.nextId) : Proc c addr limit s s2 (q ++ q') := by
  have hdis : ∀ i ∈ q', i ∉ q := by
    intro i hi' hq
    obtain ⟨b, hb, _⟩ := h2.due i hi'
    have := h1.si.live b i hb
    rw [h1.pay] at this
    dsimp only at this
    rw [if_pos hq] at this
    exact this rfl
  refine ⟨?_, ?_, ?_, ?_, by rw [h2.dec, h1.dec], ?_, ?_, ?_, ?_⟩
  · exact List.nodup_append.mpr ⟨h1.nodup, h2.nodup, fun a ha b hb e => hdis b hb (e ▸ ha)⟩
  · intro i hi'
    rcases List.mem_append.mp hi' with h | h
    · exact h1.due i h
    · obtain ⟨b, hb, hl⟩ := h2.due i h
      obtain ⟨j, hj⟩ := h1.sub b
      rw [hj] at hb
      exact ⟨b, List.mem_of_mem_drop hb, hl⟩
  · rw [h2.pay, h1.pay]
    funext i
    by_cases e1 : i ∈ q <;> by_cases e2 : i ∈ q' <;> simp [e1, e2]
  · rw [h2.outbox, h1.outbox, List.append_assoc]
    congr 1
    unfold msgs
    rw [List.filterMap_append]
    congr 1
    rw [h1.pay, h1.dec]
    refine List.filterMap_congr ?_
    intro i hi'
    dsimp only
    rw [if_neg (hdis i hi')]
  · have := h2.si
    rw [hn, hi] at this
    exact this
  · have := h1.ptr
    have := h2.ptr
    omega
  · intro i b hb hn'
    rw [List.mem_append, not_or] at hn'
    exact h2.keep i b (h1.keep i b hb hn'.1) hn'.2
  · intro b
    obtain ⟨j, hj⟩ := h1.sub b
    obtain ⟨j', hj'⟩ := h2.sub b
    exact ⟨j + j', by rw [hj', hj, List.drop_drop]⟩

/-- Taking the first `k` payments of the block at the pointer. -/
theorem proc_take {c : Cfg} {addr : Addr} {limit : Nat} {s : St} (hsi : SI s.payments s.sched s.ptr s.now s.nextId)
    (hl : s.ptr ≤ limit) (k p : Nat) (hp : p = s.ptr ∨ (p = s.ptr + 1 ∧ (s.sched s.ptr).drop k = [])) :
    Proc c addr limit s (((s.sched s.ptr).take k).foldl (payOne c addr) { s with
      sched := upd s.sched s.ptr ((s.sched s.ptr).drop k)
      ptr := p }) ((s.sched s.ptr).take k) := by
  have hnd : ((s.sched s.ptr).take k).Nodup := (hsi.snd _).sublist (List.take_sublist _ _)
  obtain ⟨h1, h2, h3, h4, h5⟩ := payAll_spec c addr ((s.sched s.ptr).take k) { s with
      sched := upd s.sched s.ptr ((s.sched s.ptr).drop k)
      ptr := p } hnd
  refine ⟨hnd, ?_, h1, h2, h3, ?_, ?_, ?_, ?_⟩
  · exact fun i hi => ⟨s.ptr, List.mem_of_mem_take hi, hl⟩
  · rw [h1, h4, h5]
    have := hsi.drop s.ptr k
    rcases hp with rfl | ⟨rfl, hd⟩
    · exact this
    · exact this.advance (by rw [upd_same, hd])
  · rw [h5]
    dsimp only
    omega
  · intro i b hb hn
    rw [h4]
    dsimp only
    rw [upd_apply]
    split
    · rename_i e
      subst e
      rw [← List.take_append_drop k (s.sched s.ptr)] at hb
      rcases List.mem_append.mp hb with h | h
      · exact absurd h hn
      · exact h
    · exact hb
  · intro b
    rw [h4]
    dsimp only
    rw [upd_apply]
    split
    · rename_i e; rw [e]; exact ⟨k, rfl⟩
    · exact ⟨0, by rw [List.drop_zero]⟩

theorem proc_none {c : Cfg} {addr : Addr} {limit : Nat} {s : St} (hsi : SI s.payments s.sched s.ptr s.now s.nextId) :
    Proc c addr limit s s [] :=
  ⟨List.nodup_nil, by simp, by simp, by simp [msgs], rfl, hsi, by omega, fun _ _ h _ => h, fun _ => ⟨0, by rw [List.drop_zero]⟩⟩

theorem delayLoop_proc (c : Cfg) (addr : Addr) (limit : Nat) : ∀ (ks : List Nat) {s : St},
    SI s.payments s.sched s.ptr s.now s.nextId → ∃ q, Proc c addr limit s (delayLoop c addr limit ks s) q
  | [], s, h => ⟨[], proc_none h⟩
  | k :: ks, s, h => by
    unfold delayLoop
    split
    · rename_i hl
      split
      · exact ⟨_, proc_take h hl k s.ptr (Or.inl rfl)⟩
      · have h1 := proc_take (c := c) (addr := addr) h hl (s.sched s.ptr).length (s.ptr + 1)
          (Or.inr ⟨rfl, List.drop_length⟩)
        rw [List.take_length, List.drop_length] at h1
        obtain ⟨p, o, l, e⟩ := payAll_frame c addr (s.sched s.ptr)
          { s with
            sched := upd s.sched s.ptr []
            ptr := s.ptr + 1 }
        generalize (s.sched s.ptr).foldl (payOne c addr) { s with
            sched := upd s.sched s.ptr []
            ptr := s.ptr + 1 } = t at h1 e ⊢
        have hn : t.now = s.now := by rw [e]
        have hi : t.nextId = s.nextId := by rw [e]
        have hsi : SI t.payments t.sched t.ptr t.now t.nextId := by rw [hn, hi]; exact h1.si
        obtain ⟨q, hq⟩ := delayLoop_proc c addr limit ks hsi
        exact ⟨_, h1.trans h hq hn hi⟩
    · exact ⟨[], proc_none h⟩

/-- The invariant of a state. -/
structure SIs (s : St) : Prop where
  si : SI s.payments s.sched s.ptr s.now s.nextId
  ptr : s.ptr ≤ s.now
  now : s.now < U32

theorem delayed_proc {c : Cfg} {ks : List Nat} {s : St} (h : SIs s) :
    ∃ q addr, Proc c addr s.now s (delayed c ks s) q ∧ (q ≠ [] → s.door .main = some addr) := by
  unfold delayed
  cases hd : s.door .main with
  | none => exact ⟨[], 0, proc_none h.si, fun h => absurd rfl h⟩
  | some addr =>
    obtain ⟨q, hq⟩ := delayLoop_proc c addr (min s.now (s.ptr + c.blockLimit)) ks h.si
    refine ⟨q, addr, { hq with due := fun i hi => ?_, ptr := ?_ }, fun _ => rfl⟩
    · obtain ⟨b, h1, h2⟩ := hq.due i hi
      exact ⟨b, h1, by omega⟩
    · have := hq.ptr
      dsimp only
      omega

theorem block_sched {c : Cfg} {s s' : St} {ks ps : List Nat} {x : Hash → Bool} (h : block c s ks ps x = .ok s') :
    s'.payments = (delayed c ks s).payments ∧ s'.sched = (delayed c ks s).sched ∧ s'.ptr = (delayed c ks s).ptr ∧
    s'.nextId = s.nextId ∧ s'.now = s.now + 1 ∧ s'.outbox = (delayed c ks s).outbox ∧ s'.lost = (delayed c ks s).lost ∧
    s'.now < U32 ∧ s'.seq = s.seq ∧ s'.params = s.params ∧ s'.next = s.next ∧ s'.dec = s.dec ∧ s'.door = s.door ∧
    s'.delay = s.delay := by
  obtain ⟨hb, p, o, l, sc, q, h1, e⟩ := block_ok h
  obtain ⟨d, st, pr, e'⟩ := clearLoop_frame (min (windowEnd s) ((s.pruned + c.maxPruned) % U32)) ps
    { s with payments := p, outbox := o, lost := l, sched := sc, ptr := q }
  unfold processTx clear at h1
  simp only [windowEnd] at e' h1
  rw [e'] at h1
  obtain ⟨L, st', hi, cr, rfl⟩ := processList_frame _ h1
  rw [e]
  exact ⟨rfl, rfl, rfl, rfl, rfl, rfl, rfl, by dsimp only; omega, rfl, rfl, rfl, rfl, rfl, rfl⟩

theorem delayPayment_si {c : Cfg} {s s' : St} {d : Nat} {w : Wd} (h : SIs s) (hd : delayPayment c s d w = .ok s') : SIs s' := by
  simp only [delayPayment, bind_ok, ensure_ok, pure_ok] at hd
  obtain ⟨_, _, _, _, rfl⟩ := hd
  have hnew : ∀ b, s.nextId ∉ s.sched b := fun b hb => h.si.live b _ hb (h.si.ids _ (Nat.le_refl _))
  generalize hB : min (s.now + d) (U32 - 1) = B
  have hBp : s.ptr ≤ B := by
    have := h.ptr
    have := h.now
    omega
  have hmem : ∀ b i, i ∈ upd s.sched B (s.sched B ++ [s.nextId]) b ↔ i ∈ s.sched b ∨ (i = s.nextId ∧ b = B) := by
    intro b i
    rw [upd_apply]
    split
    · rename_i e; simp [e]
    · rename_i e; simp [e]
  refine ⟨⟨?_, ?_, ?_, ?_, ?_, ?_⟩, h.ptr, h.now⟩
  · intro b i hi
    dsimp only
    rw [upd_apply]
    split
    · exact fun h => nomatch h
    · rename_i hne
      rcases (hmem b i).mp hi with hi | hi
      · exact h.si.live b i hi
      · exact absurd hi.1 hne
  · intro i hi
    dsimp only at hi ⊢
    rw [upd_ne _ _ (by omega)]
    exact h.si.ids i (by omega)
  · intro i b b' h1 h2
    rcases (hmem b i).mp h1 with h1 | h1
    · rcases (hmem b' i).mp h2 with h2 | h2
      · exact h.si.uniq i b b' h1 h2
      · exact absurd (h2.1 ▸ h1) (hnew b)
    · rcases (hmem b' i).mp h2 with h2 | h2
      · exact absurd (h1.1 ▸ h2) (hnew b')
      · exact h1.2.trans h2.2.symm
  · intro b
    dsimp only
    rw [upd_apply]
    split
    · exact (List.nodup_append.mpr ⟨h.si.snd _, by simp, fun a ha b' hb' => by
        simp only [List.mem_singleton] at hb'
        rintro rfl
        exact hnew _ (hb' ▸ ha)⟩)
    · exact h.si.snd b
  · intro i hi
    dsimp only at hi
    rw [upd_apply] at hi
    split at hi
    · rename_i e; exact ⟨B, (hmem _ _).mpr (Or.inr ⟨e, rfl⟩)⟩
    · obtain ⟨b, hb⟩ := h.si.pend i hi
      exact ⟨b, (hmem _ _).mpr (Or.inl hb)⟩
  · intro b hb
    dsimp only at hb
    rw [upd_apply] at hb
    split at hb
    · rename_i e; rw [e]; exact hBp
    · exact h.si.ptr b hb

theorem SIs.same {s s' : St} (h : SIs s) (e1 : s'.payments = s.payments) (e2 : s'.sched = s.sched) (e3 : s'.ptr = s.ptr)
    (e4 : s'.now = s.now) (e5 : s'.nextId = s.nextId) : SIs s' := by
  refine ⟨?_, by rw [e3, e4]; exact h.ptr, by rw [e4]; exact h.now⟩
  rw [e1, e2, e3, e4, e5]
  exact h.si

/-- An operation other than a delayed withdrawal or a block leaves the schedule alone. -/
theorem step_sched {c : Cfg} {s s' : St} {op : Op} (hs : step c s op = .ok s') :
    (∃ ks ps x, op = .block ks ps x) ∨
    (∃ t d w, delayPayment c t d w = .ok s' ∧ t.payments = s.payments ∧ t.sched = s.sched ∧ t.ptr = s.ptr ∧ t.now = s.now ∧
      t.nextId = s.nextId ∧ ∃ who a x dest tag, op = .withdraw who a x dest tag) ∨
    (s'.payments = s.payments ∧ s'.sched = s.sched ∧ s'.ptr = s.ptr ∧ s'.now = s.now ∧ s'.nextId = s.nextId) := by
  cases op with
  | block ks ps x => exact Or.inl ⟨_, _, _, rfl⟩
  | withdraw w a x d t =>
    refine Or.inr ?_
    simp only [step, withdraw, bind_ok, ensure_ok, okOr_ok] at hs
    obtain ⟨_, _, _, _, y, _, addr, _, r, _, t, ht, h⟩ := hs
    obtain ⟨p, n, q, e⟩ := ticket_frame ht
    split at h
    · exact Or.inl ⟨t.1, _, _, h, by rw [e], by rw [e], by rw [e], by rw [e], by rw [e], _, _, _, _, _, rfl⟩
    · obtain ⟨o, rfl⟩ := send_frame h
      refine Or.inr ?_
      rw [e]
      exact ⟨rfl, rfl, rfl, rfl, rfl⟩
  | submit w i g d =>
    simp only [step, submit, bind_ok, ensure_ok, pure_ok] at hs
    obtain ⟨_, _, _, _, _, hw, _, hn, _, _, rfl⟩ := hs
    exact Or.inr (Or.inr ⟨rfl, rfl, rfl, rfl, rfl⟩)
  | challenge w g => cases hs; exact Or.inr (Or.inr ⟨rfl, rfl, rfl, rfl, rfl⟩)
  | nftTx d => obtain ⟨_, _, _, _, rfl⟩ := nftTx_frame hs; exact Or.inr (Or.inr ⟨rfl, rfl, rfl, rfl, rfl⟩)
  | signers =>
    obtain ⟨_, _, _, _, e⟩ := signers_frame s
    simp only [step, e] at hs
    cases hs
    exact Or.inr (Or.inr ⟨rfl, rfl, rfl, rfl, rfl⟩)
  | nextAlloc w d a b =>
    simp only [step, nextAlloc, bind_ok, ensure_ok, pure_ok] at hs
    obtain ⟨_, _, _, _, _, _, rfl⟩ := hs
    exact Or.inr (Or.inr ⟨rfl, rfl, rfl, rfl, rfl⟩)
  | curAlloc d t a b =>
    simp only [step, curAlloc, bind_ok, ensure_ok, pure_ok] at hs
    obtain ⟨_, _, _, _, rfl⟩ := hs
    exact Or.inr (Or.inr ⟨rfl, rfl, rfl, rfl, rfl⟩)
  | prune i =>
    simp only [step, prune, bind_ok, ensure_ok, pure_ok] at hs
    obtain ⟨_, hi, _, _, rfl⟩ := hs
    exact Or.inr (Or.inr ⟨rfl, rfl, rfl, rfl, rfl⟩)
  | setFee d x =>
    simp only [step, bind_ok, ensure_ok, pure_ok] at hs
    obtain ⟨_, _, rfl⟩ := hs
    exact Or.inr (Or.inr ⟨rfl, rfl, rfl, rfl, rfl⟩)
  | removeMap a =>
    simp only [step, bind_ok, okOr_ok, pure_ok] at hs
    obtain ⟨_, _, rfl⟩ := hs
    exact Or.inr (Or.inr ⟨rfl, rfl, rfl, rfl, rfl⟩)
  | setRelayer w b => cases hs; exact Or.inr (Or.inr ⟨rfl, rfl, rfl, rfl, rfl⟩)
  | setDelay a v => cases hs; exact Or.inr (Or.inr ⟨rfl, rfl, rfl, rfl, rfl⟩)
  | setDoor d a => cases hs; exact Or.inr (Or.inr ⟨rfl, rfl, rfl, rfl, rfl⟩)
  | setMap a cur => cases hs; exact Or.inr (Or.inr ⟨rfl, rfl, rfl, rfl, rfl⟩)
  | ledger L => cases hs; exact Or.inr (Or.inr ⟨rfl, rfl, rfl, rfl, rfl⟩)
  | setDec a n => cases hs; exact Or.inr (Or.inr ⟨rfl, rfl, rfl, rfl, rfl⟩)

theorem step_si {c : Cfg} {s s' : St} {op : Op} (h : SIs s) (hs : step c s op = .ok s') : SIs s' := by
  rcases step_sched hs with ⟨ks, ps, x, rfl⟩ | ⟨t, d, w, h1, e1, e2, e3, e4, e5, _⟩ | ⟨e1, e2, e3, e4, e5⟩
  · obtain ⟨e1, e2, e3, e4, e5, e6, e7, e8, _⟩ := block_sched hs
    obtain ⟨q, addr, hq, _⟩ := delayed_proc (c := c) (ks := ks) h
    refine ⟨?_, ?_, e8⟩
    · rw [e1, e2, e3, e4]
      exact { hq.si with }
    · have := hq.ptr
      have := h.ptr
      rw [e3, e5]
      omega
  · exact delayPayment_si (h.same e1 e2 e3 e4 e5) h1
  · exact h.same e1 e2 e3 e4 e5

theorem Reach.sis {c : Cfg} {G : St → Op → Prop} {g s : St} (h : Reach c G g s) : SIs s := by
  induction h with
  | init hg =>
    refine ⟨⟨?_, fun i _ => hg.payments i, ?_, ?_, fun i hi => absurd (hg.payments i) hi, ?_⟩, hg.ptr, hg.now⟩
    · intro b i hi; rw [hg.sched] at hi; cases hi
    · intro i b b' hi; rw [hg.sched] at hi; cases hi
    · intro b; rw [hg.sched]; exact List.nodup_nil
    · intro b hb; exact absurd (hg.sched b) hb
  | step _ _ hs ih => exact step_si ih hs

end Verif.Xrpl
