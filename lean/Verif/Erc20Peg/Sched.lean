import Verif.Erc20Peg.Queue
import Mathlib.Data.List.Nodup

/-!
# Invariants of the schedule of delayed payments
-/

namespace Verif.Erc20Peg

structure QI (s : St) : Prop where
  le : ∀ b ∈ s.ready, b ≤ s.now
  nodup : s.ready.Nodup
  live : ∀ b, ∀ i ∈ sch s b, s.payments i ≠ none
  ids : ∀ i, s.nextId ≤ i → s.payments i = none
  uniq : ∀ i b b', i ∈ sch s b → i ∈ sch s b' → b = b'
  snd : ∀ b, (sch s b).Nodup
  pend : ∀ i, s.payments i ≠ none → ∃ b, i ∈ sch s b
  now : s.now + 1 < U32

theorem QI.genesis {c : Cfg} {g : St} (h : Genesis c g) : QI g := by
  have e : ∀ b, sch g b = [] := fun b => by simp [sch, h.sched]
  refine ⟨by simp [h.ready], by simp [h.ready], fun b i hi => by simp [e] at hi, fun i _ => h.payments i,
    fun i b b' hi => by simp [e] at hi, fun b => by simp [e], fun i hi => absurd (h.payments i) hi, h.now⟩

theorem QI.same {s s' : St} (h : QI s) (e1 : s'.ready = s.ready) (e2 : s'.now = s.now) (e3 : s'.sched = s.sched)
    (e4 : s'.payments = s.payments) (e5 : s'.nextId = s.nextId) : QI s' := by
  have e : sch s' = sch s := by funext b; simp only [sch, e3]
  refine ⟨by rw [e1, e2]; exact h.le, by rw [e1]; exact h.nodup, by rw [e, e4]; exact h.live, by rw [e5, e4]; exact h.ids,
    by rw [e]; exact h.uniq, by rw [e]; exact h.snd, by rw [e, e4]; exact h.pend, by rw [e2]; exact h.now⟩

theorem mem_queue {s : St} {i : Nat} : i ∈ queue s ↔ ∃ b ∈ s.ready, i ∈ sch s b := List.mem_flatMap

theorem QI.queue_nodup {s : St} (h : QI s) : (queue s).Nodup := by
  unfold queue
  rw [List.nodup_flatMap]
  refine ⟨fun b _ => h.snd b, ?_⟩
  refine h.nodup.imp ?_
  intro b b' hne
  simp only [Function.onFun]
  intro i hi hi'
  exact hne (h.uniq i b b' hi hi')

theorem delay_sch {s : St} {d : Nat} {p : Payment} (hU : s.nextId + 1 < U64) (b : Nat) :
    sch (delayPayment s d p) b = if b = min (s.now + d) (U32 - 1) then sch s b ++ [s.nextId] else sch s b := by
  unfold delayPayment
  rw [if_pos hU]
  simp only [sch, upd_apply]
  by_cases e : b = min (s.now + d) (U32 - 1)
  · simp only [e, if_true]; rfl
  · simp only [e, if_false]

theorem delay_qi {s : St} {d : Nat} {p : Payment} (h : QI s) : QI (delayPayment s d p) := by
  by_cases hU : s.nextId + 1 < U64
  · have hs := delay_sch (s := s) (d := d) (p := p) hU
    have hp : (delayPayment s d p).payments = upd s.payments s.nextId (some p) := by unfold delayPayment; rw [if_pos hU]
    have hn : (delayPayment s d p).nextId = s.nextId + 1 := by unfold delayPayment; rw [if_pos hU]
    have hr : (delayPayment s d p).ready = s.ready := by unfold delayPayment; rw [if_pos hU]
    have hw : (delayPayment s d p).now = s.now := by unfold delayPayment; rw [if_pos hU]
    have hnew : ∀ b, s.nextId ∉ sch s b := fun b hb => h.live b _ hb (h.ids _ (le_refl _))
    have hmem : ∀ b i, i ∈ sch (delayPayment s d p) b ↔
        i ∈ sch s b ∨ (i = s.nextId ∧ b = min (s.now + d) (U32 - 1)) := by
      intro b i
      rw [hs]
      split
      · rename_i e; simp [e]
      · rename_i e; simp [e]
    constructor
    · rw [hr, hw]; exact h.le
    · rw [hr]; exact h.nodup
    · intro b i hi
      rw [hp, upd_apply]
      split
      · exact fun h => nomatch h
      · rename_i hne
        rcases (hmem b i).mp hi with hi | hi
        · exact h.live b i hi
        · exact absurd hi.1 hne
    · intro i hi
      rw [hn] at hi
      rw [hp, upd_ne _ _ (by omega)]
      exact h.ids i (by omega)
    · intro i b b' h1 h2
      rcases (hmem b i).mp h1 with h1 | h1
      · rcases (hmem b' i).mp h2 with h2 | h2
        · exact h.uniq i b b' h1 h2
        · exact absurd (h2.1 ▸ h1) (hnew b)
      · rcases (hmem b' i).mp h2 with h2 | h2
        · exact absurd (h1.1 ▸ h2) (hnew b')
        · exact h1.2.trans h2.2.symm
    · intro b
      rw [hs]
      split
      · exact (List.nodup_append.mpr ⟨h.snd b, by simp, fun a ha b' hb' => by
          simp only [List.mem_singleton] at hb'
          rintro rfl
          exact hnew b (hb' ▸ ha)⟩)
      · exact h.snd b
    · intro i hi
      rw [hp, upd_apply] at hi
      split at hi
      · rename_i e; exact ⟨_, (hmem _ _).mpr (Or.inr ⟨e, rfl⟩)⟩
      · obtain ⟨b, hb⟩ := h.pend i hi
        exact ⟨b, (hmem _ _).mpr (Or.inl hb)⟩
    · rw [hw]; exact h.now
  · unfold delayPayment
    rw [if_neg hU]; exact h

/-- The payments an idle phase leaves alone. -/
theorem idle_payments {c : Cfg} {s s' : St} {m : Nat} (hq : QI s) (h : idle c s m = .ok s') (i : Nat) :
    s'.payments i = if i ∈ (queue s).take m then none else s.payments i := by
  obtain ⟨f, k, rfl, _⟩ := idle_spec hq.nodup h
  exact (fold_frame c _ s).1 i

theorem idle_qi {c : Cfg} {s s' : St} {m : Nat} (hq : QI s) (h : idle c s m = .ok s') : QI s' := by
  have hp := idle_payments hq h
  obtain ⟨f, k, he, h2, h3, h4, h5⟩ := idle_spec hq.nodup h
  obtain ⟨_, _, _, fn, fw, _⟩ := fold_frame c ((queue s).take m) s
  have hr : s'.ready = s.ready.drop k := by rw [he]
  have hn : s'.nextId = s.nextId := by rw [he]; exact fn
  have hw : s'.now = s.now := by rw [he]; exact fw
  have hsub : ∀ b i, i ∈ sch s' b → i ∈ sch s b := by
    intro b i hi
    obtain ⟨j, hj⟩ := h4 b
    rw [hj] at hi
    exact List.mem_of_mem_drop hi
  have hrs : ∀ b ∈ s'.ready, b ∈ s.ready := fun b hb => by rw [hr] at hb; exact List.mem_of_mem_drop hb
  have hout : ∀ b, b ∉ s.ready → sch s' b = sch s b := fun b hb => by
    have : s'.sched b = s.sched b := by rw [he]; exact h3 b hb
    simp only [sch, this]
  constructor
  · rw [hw]; exact fun b hb => hq.le b (hrs b hb)
  · rw [hr]; exact hq.nodup.sublist (List.drop_sublist _ _)
  · intro b i hi
    rw [hp i, if_neg]
    · exact hq.live b i (hsub b i hi)
    · intro ht
      by_cases hb : b ∈ s.ready
      · have hb' : b ∈ s'.ready := by
          by_contra hb'
          rw [h5 b hb hb'] at hi; cases hi
        have hd : i ∈ (queue s).drop m := by rw [← h2]; exact mem_queue.mpr ⟨b, hb', hi⟩
        have hnd := hq.queue_nodup
        rw [← List.take_append_drop m (queue s)] at hnd
        exact (List.nodup_append.mp hnd).2.2 i ht i hd rfl
      · obtain ⟨b2, hb2, hi2⟩ := mem_queue.mp (List.mem_of_mem_take ht)
        exact hb (hq.uniq i b b2 (hsub b i hi) hi2 ▸ hb2)
  · intro i hi
    rw [hp i]
    split
    · rfl
    · exact hq.ids i (by rw [hn] at hi; exact hi)
  · intro i b b' h1 h2
    exact hq.uniq i b b' (hsub _ _ h1) (hsub _ _ h2)
  · intro b
    obtain ⟨j, hj⟩ := h4 b
    rw [hj]; exact (hq.snd b).sublist (List.drop_sublist _ _)
  · intro i hi
    rw [hp i] at hi
    split at hi
    · exact absurd rfl hi
    · rename_i hnt
      obtain ⟨b, hb⟩ := hq.pend i hi
      by_cases hbr : b ∈ s.ready
      · have : i ∈ queue s := mem_queue.mpr ⟨b, hbr, hb⟩
        rw [← List.take_append_drop m (queue s)] at this
        rcases List.mem_append.mp this with h6 | h6
        · exact absurd h6 hnt
        · rw [← h2] at h6
          obtain ⟨b', _, hb'⟩ := mem_queue.mp h6
          exact ⟨b', hb'⟩
      · exact ⟨b, by rw [hout b hbr]; exact hb⟩
  · rw [hw]; exact hq.now

theorem nextBlock_qi {c : Cfg} {s s' : St} (hq : QI s) (h : nextBlock c s = .ok s') : QI s' := by
  simp only [nextBlock, bind_ok, ensure_ok, pure_ok] at h
  obtain ⟨_, hnow, rfl⟩ := h
  split
  · refine ⟨?_, ?_, hq.live, hq.ids, hq.uniq, hq.snd, hq.pend, by simp only; omega⟩
    · intro b hb
      simp only [List.mem_append, List.mem_singleton] at hb ⊢
      rcases hb with hb | hb
      · have := hq.le b hb; omega
      · omega
    · refine List.nodup_append.mpr ⟨hq.nodup, by simp, ?_⟩
      intro a ha b hb
      simp only [List.mem_singleton] at hb
      have := hq.le a ha
      omega
  · refine ⟨?_, hq.nodup, hq.live, hq.ids, hq.uniq, hq.snd, hq.pend, by simp only; omega⟩
    intro b hb
    have := hq.le b hb
    simp only; omega

theorem claim_parts {c : Cfg} {s s' : St} {b id : Nat} (h : claim c s b id = .ok s') :
    id ∈ sch s b ∧ s'.payments = upd s.payments id none ∧ s'.ready = s.ready ∧ s'.now = s.now ∧ s'.nextId = s.nextId ∧
    s'.delay = s.delay ∧ s'.sched = upd s.sched b (some ((sch s b).erase id)) := by
  simp only [claim, bind_ok, ensure_ok, pure_ok] at h
  obtain ⟨_, hm, rfl⟩ := h
  obtain ⟨h1, h2, h3, h4, h5, h6⟩ := process_frame c
    { s with sched := upd s.sched b (some (((s.sched b).getD []).erase id)) } id
  exact ⟨hm, h1, h3, h5, h4, h6, h2⟩

theorem claim_sch {c : Cfg} {s s' : St} {b id : Nat} (h : claim c s b id = .ok s') (b' : Nat) :
    sch s' b' = if b' = b then (sch s b).erase id else sch s b' := by
  obtain ⟨_, _, _, _, _, _, hs⟩ := claim_parts h
  unfold sch
  rw [hs, upd_apply]
  split
  · rfl
  · rfl

theorem claim_qi {c : Cfg} {s s' : St} {b id : Nat} (hq : QI s) (h : claim c s b id = .ok s') : QI s' := by
  obtain ⟨hm, hp, hr, hw, hn, _, _⟩ := claim_parts h
  have hs := claim_sch h
  have hsub : ∀ b' i, i ∈ sch s' b' → i ∈ sch s b' := by
    intro b' i hi
    rw [hs] at hi
    split at hi
    · rename_i e; rw [e]; exact List.mem_of_mem_erase hi
    · exact hi
  constructor
  · rw [hr, hw]; exact hq.le
  · rw [hr]; exact hq.nodup
  · intro b' i hi
    rw [hp, upd_apply]
    split
    · rename_i e
      subst e
      have := hq.uniq i b' b (hsub _ _ hi) hm
      subst this
      rw [hs, if_pos rfl] at hi
      exact absurd hi (hq.snd b').not_mem_erase
    · exact hq.live b' i (hsub _ _ hi)
  · intro i hi
    rw [hp, upd_apply]
    split
    · rfl
    · exact hq.ids i (by rw [hn] at hi; exact hi)
  · intro i b1 b2 h1 h2
    exact hq.uniq i b1 b2 (hsub _ _ h1) (hsub _ _ h2)
  · intro b'
    rw [hs]
    split
    · exact (hq.snd b).erase _
    · exact hq.snd b'
  · intro i hi
    rw [hp, upd_apply] at hi
    split at hi
    · exact absurd rfl hi
    · rename_i hne
      obtain ⟨b', hb'⟩ := hq.pend i hi
      refine ⟨b', ?_⟩
      rw [hs]
      split
      · rename_i e; subst e; exact (List.mem_erase_of_ne hne).mpr hb'
      · exact hb'
  · rw [hw]; exact hq.now

/-- The three kinds of a successful withdrawal or deposit, as far as the schedule is concerned. -/
theorem withdraw_sched {c : Cfg} {s s' : St} {who : Acct} {a : AssetId} {x : Nat} {ben : Addr} {e : Bool}
    (h : withdraw c s who a x ben e = .ok s') :
    (∃ L d t, s.toErc a = some t ∧ delayFor s s.wdDelay a x = some d ∧ burnOrTransfer c s.ledger a who x = .ok L ∧
      s' = delayPayment { s with ledger := L } d (.withdrawal who ⟨t, x, ben⟩)) ∨
    (∃ L t, s.toErc a = some t ∧ delayFor s s.wdDelay a x = none ∧ burnOrTransfer c s.ledger a who x = .ok L ∧
      s' = processWithdrawal c { s with ledger := L } ⟨t, x, ben⟩ a) := by
  unfold withdraw at h
  simp only [bind_ok, ensure_ok, okOr_ok] at h
  obtain ⟨_, _, _, _, t, ht, h⟩ := h
  cases hd : delayFor s s.wdDelay a x with
  | some d =>
    rw [hd] at h
    simp only [bind_ok, ensure_ok, pure_ok] at h
    obtain ⟨_, _, L, hL, rfl⟩ := h
    exact Or.inl ⟨L, d, t, ht, rfl, hL, rfl⟩
  | none =>
    rw [hd] at h
    simp only [bind_ok, pure_ok] at h
    obtain ⟨L, hL, rfl⟩ := h
    exact Or.inr ⟨L, t, ht, rfl, hL, rfl⟩

theorem deposit_sched {c : Cfg} {s s' : St} {src : Addr} {d : Dep} (h : deposit c s src d = .ok s') :
    (∃ n a, s.toAsset d.token = some a ∧ delayFor s s.depDelay a d.amount = some n ∧
      s' = accept (delayPayment s n (.deposit d)) d) ∨
    (∃ s1, processDeposit c s d = .ok s1 ∧ s' = accept s1 d ∧
      ∀ a, s.toAsset d.token = some a → delayFor s s.depDelay a d.amount = none) := by
  unfold deposit at h
  simp only [bind_ok, ensure_ok] at h
  obtain ⟨_, _, _, _, _, _, r, hr, h⟩ := h
  unfold checkKnown at hr
  cases r with
  | some n =>
    simp only [pure_ok] at h
    subst h
    cases ha : s.toAsset d.token with
    | none => rw [ha] at hr; cases hr
    | some a =>
      rw [ha] at hr
      simp only [bind_ok, ensure_ok, pure_ok] at hr
      obtain ⟨_, _, hr⟩ := hr
      exact Or.inl ⟨n, a, rfl, hr, rfl⟩
  | none =>
    simp only [bind_ok, pure_ok] at h
    obtain ⟨s1, h1, rfl⟩ := h
    refine Or.inr ⟨s1, h1, rfl, fun a ha => ?_⟩
    rw [ha] at hr
    simp only [bind_ok, ensure_ok, pure_ok] at hr
    obtain ⟨_, _, hr⟩ := hr
    exact hr

theorem step_qi {c : Cfg} {s s' : St} {op : Op} (hq : QI s) (h : step c s op = .ok s') : QI s' := by
  cases op with
  | withdraw w a x b e =>
    rcases withdraw_sched h with ⟨L, d, t, _, _, _, rfl⟩ | ⟨L, t, _, _, _, rfl⟩
    · exact delay_qi (hq.same rfl rfl rfl rfl rfl)
    · exact hq.same rfl rfl rfl rfl rfl
  | deposit src d =>
    rcases deposit_sched h with ⟨n, a, _, _, rfl⟩ | ⟨s1, h1, rfl, _⟩
    · exact (delay_qi hq).same rfl rfl rfl rfl rfl
    · obtain ⟨f1, f2, f3, f4, f5, _⟩ := processDeposit_frame h1
      exact hq.same f3 f5 f2 f1 f4
  | nextBlock => exact nextBlock_qi hq h
  | idle m => exact idle_qi hq h
  | claim b id => exact claim_qi hq h
  | setActive => cases h; exact hq.same rfl rfl rfl rfl rfl
  | setContracts => cases h; exact hq.same rfl rfl rfl rfl rfl
  | setMap => cases h; exact hq.same rfl rfl rfl rfl rfl
  | setDelay => cases h; exact hq.same rfl rfl rfl rfl rfl
  | takeAsset =>
    simp only [step, bind_ok, okOr_ok, pure_ok] at h
    obtain ⟨a, ha, rfl⟩ := h
    exact hq.same rfl rfl rfl rfl rfl
  | ledger L => cases h; exact hq.same rfl rfl rfl rfl rfl

theorem Reach.qi {c : Cfg} {G : St → Op → Prop} {g s : St} (h : Reach c G g s) : QI s := by
  induction h with
  | init hg => exact QI.genesis hg
  | step _ _ hs ih => exact step_qi ih hs

/-- A successful run of operations satisfying `G`. -/
inductive Run (c : Cfg) (G : St → Op → Prop) : St → List Op → St → Prop
  | nil (s : St) : Run c G s [] s
  | cons {s s1 s2 : St} {op : Op} {ops : List Op} : G s op → step c s op = .ok s1 → Run c G s1 ops s2 →
      Run c G s (op :: ops) s2

theorem Run.qi {c : Cfg} {G : St → Op → Prop} {s s' : St} {ops : List Op} (hr : Run c G s ops s') (h : QI s) : QI s' := by
  induction hr with
  | nil => exact h
  | cons _ hs _ ih => exact ih (step_qi h hs)

theorem Run.reach {c : Cfg} {G : St → Op → Prop} {g s s' : St} {ops : List Op} (hr : Run c G s ops s')
    (h : Reach c G g s) : Reach c G g s' := by
  induction hr with
  | nil => exact h
  | cons hg hs _ ih => exact ih (.step h hg hs)

/-- What one step can do to a waiting payment: nothing, or execute it. -/
theorem step_payment {c : Cfg} {s s' : St} {op : Op} (hq : QI s) (h : step c s op = .ok s') {i : Nat} (hi : i < s.nextId) :
    (s'.payments i = s.payments i ∧ s.nextId ≤ s'.nextId ∧ ∀ b, s.payments i ≠ none → i ∈ sch s b → i ∈ sch s' b) ∨
    (s'.payments i = none ∧ s.nextId ≤ s'.nextId ∧
      ((∃ b, op = .claim b i ∧ i ∈ sch s b) ∨ ∃ m, op = .idle m ∧ i ∈ (queue s).take m)) := by
  have hsame : s'.payments = s.payments → s'.nextId = s.nextId → s'.sched = s.sched →
      (s'.payments i = s.payments i ∧ s.nextId ≤ s'.nextId ∧ ∀ b, s.payments i ≠ none → i ∈ sch s b → i ∈ sch s' b) := by
    intro e1 e2 e3
    refine ⟨by rw [e1], by rw [e2], fun b _ hb => ?_⟩
    unfold sch at hb ⊢; rw [e3]; exact hb
  have hdelay : ∀ (t : St) (d : Nat) (p : Payment), t.payments = s.payments → t.nextId = s.nextId → t.sched = s.sched →
      t.now = s.now →
      ((delayPayment t d p).payments i = s.payments i ∧ s.nextId ≤ (delayPayment t d p).nextId ∧
        ∀ b, s.payments i ≠ none → i ∈ sch s b → i ∈ sch (delayPayment t d p) b) := by
    intro t d p e1 e2 e3 e4
    by_cases hU : t.nextId + 1 < U64
    · refine ⟨?_, ?_, fun b _ hb => ?_⟩
      · unfold delayPayment
        rw [if_pos hU]
        simp only
        rw [e1, e2, upd_ne _ _ (by omega)]
      · unfold delayPayment
        rw [if_pos hU]
        simp only
        omega
      · rw [delay_sch hU]
        have : sch t b = sch s b := by unfold sch; rw [e3]
        rw [this]
        split
        · exact List.mem_append_left _ hb
        · exact hb
    · unfold delayPayment
      rw [if_neg hU]
      refine ⟨by rw [e1], by rw [e2], fun b _ hb => ?_⟩
      unfold sch at hb ⊢; rw [e3]; exact hb
  cases op with
  | withdraw w a x b e =>
    rcases withdraw_sched h with ⟨L, d, t, _, _, _, rfl⟩ | ⟨L, t, _, _, _, rfl⟩
    · exact Or.inl (hdelay _ _ _ rfl rfl rfl rfl)
    · exact Or.inl (hsame rfl rfl rfl)
  | deposit src d =>
    rcases deposit_sched h with ⟨n, a, _, _, rfl⟩ | ⟨s1, h1, rfl, _⟩
    · exact Or.inl (hdelay s n (.deposit d) rfl rfl rfl rfl)
    · obtain ⟨f1, f2, f3, f4, f5, _⟩ := processDeposit_frame h1
      exact Or.inl (hsame f1 f4 f2)
  | nextBlock =>
    simp only [step, nextBlock, bind_ok, ensure_ok, pure_ok] at h
    obtain ⟨_, _, rfl⟩ := h
    exact Or.inl (hsame (by split <;> rfl) (by split <;> rfl) (by split <;> rfl))
  | idle m =>
    have hp := idle_payments hq h i
    obtain ⟨f, k, he, h2, h3, h4, h5⟩ := idle_spec hq.nodup h
    obtain ⟨_, _, _, fn, fw, _⟩ := fold_frame c ((queue s).take m) s
    have hn : s'.nextId = s.nextId := by rw [he]; exact fn
    by_cases ht : i ∈ (queue s).take m
    · rw [if_pos ht] at hp
      exact Or.inr ⟨hp, by rw [hn], Or.inr ⟨m, rfl, ht⟩⟩
    · rw [if_neg ht] at hp
      refine Or.inl ⟨hp, by rw [hn], fun b hne hb => ?_⟩
      by_cases hbr : b ∈ s.ready
      · have : i ∈ queue s := mem_queue.mpr ⟨b, hbr, hb⟩
        rw [← List.take_append_drop m (queue s)] at this
        rcases List.mem_append.mp this with h6 | h6
        · exact absurd h6 ht
        · rw [← h2] at h6
          obtain ⟨b', _, hb'⟩ := mem_queue.mp h6
          obtain ⟨j, hj⟩ := h4 b'
          have hb2 : i ∈ sch s b' := by rw [hj] at hb'; exact List.mem_of_mem_drop hb'
          rw [hq.uniq i b b' hb hb2]; exact hb'
      · have : s'.sched b = s.sched b := by rw [he]; exact h3 b hbr
        unfold sch at hb ⊢
        rw [this]; exact hb
  | claim b id =>
    obtain ⟨hm, hp, hr, hw, hn, _, _⟩ := claim_parts h
    by_cases e : i = id
    · subst e
      exact Or.inr ⟨by rw [hp, upd_same], by rw [hn], Or.inl ⟨b, rfl, hm⟩⟩
    · refine Or.inl ⟨by rw [hp, upd_ne _ _ e], by rw [hn], fun b' _ hb' => ?_⟩
      rw [claim_sch h]
      split
      · rename_i e'; subst e'; exact (List.mem_erase_of_ne e).mpr hb'
      · exact hb'
  | setActive => cases h; exact Or.inl (hsame rfl rfl rfl)
  | setContracts => cases h; exact Or.inl (hsame rfl rfl rfl)
  | setMap => cases h; exact Or.inl (hsame rfl rfl rfl)
  | setDelay => cases h; exact Or.inl (hsame rfl rfl rfl)
  | takeAsset =>
    simp only [step, bind_ok, okOr_ok, pure_ok] at h
    obtain ⟨a, ha, rfl⟩ := h
    exact Or.inl (hsame rfl rfl rfl)
  | ledger L => cases h; exact Or.inl (hsame rfl rfl rfl)

/-! ## no payment is forgotten -/

/-- The assumptions of the liveness property: delays are positive, and the list of ready blocks has room for another one
when a block starts. -/
@[reducible] def Live (c : Cfg) (s : St) : Op → Prop
  | .setDelay _ _ d => 0 < d
  | .nextBlock => s.ready.length < c.maxReady
  | _ => True

structure LI (s : St) : Prop where
  delay : ∀ a m d, s.delay a = some (m, d) → 0 < d
  due : ∀ b, ∀ i ∈ sch s b, s.now < b ∨ b ∈ s.ready

theorem LI.same {s s' : St} (h : LI s) (e1 : s'.delay = s.delay) (e2 : s'.sched = s.sched) (e3 : s'.now = s.now)
    (e4 : s'.ready = s.ready) : LI s' := by
  refine ⟨by rw [e1]; exact h.delay, fun b i hi => ?_⟩
  unfold sch at hi
  rw [e2] at hi
  rw [e3, e4]; exact h.due b i hi

theorem delayFor_pos {s : St} {on : Bool} {a : AssetId} {x d : Nat} (h : LI s) (hd : delayFor s on a x = some d) : 0 < d := by
  unfold delayFor at hd
  split at hd
  · split at hd
    · rename_i m d' hm
      split at hd
      · cases hd; exact h.delay _ _ _ hm
      · cases hd
    · cases hd
  · cases hd

theorem delay_li {s : St} {d : Nat} {p : Payment} (hq : QI s) (h : LI s) (hd : 0 < d) : LI (delayPayment s d p) := by
  by_cases hU : s.nextId + 1 < U64
  · have hr : (delayPayment s d p).ready = s.ready := by unfold delayPayment; rw [if_pos hU]
    have hw : (delayPayment s d p).now = s.now := by unfold delayPayment; rw [if_pos hU]
    have hdl : (delayPayment s d p).delay = s.delay := by unfold delayPayment; rw [if_pos hU]
    refine ⟨by rw [hdl]; exact h.delay, fun b i hi => ?_⟩
    rw [hr, hw]
    rw [delay_sch hU] at hi
    split at hi
    · rename_i e
      have := hq.now
      left
      rw [e]
      omega
    · exact h.due b i hi
  · unfold delayPayment
    rw [if_neg hU]; exact h

theorem step_li {c : Cfg} {s s' : St} {op : Op} (hq : QI s) (hl : LI s) (hG : Live c s op) (h : step c s op = .ok s') :
    LI s' := by
  cases op with
  | withdraw w a x b e =>
    rcases withdraw_sched h with ⟨L, d, t, _, hd, _, rfl⟩ | ⟨L, t, _, _, _, rfl⟩
    · exact delay_li (hq.same rfl rfl rfl rfl rfl) (hl.same rfl rfl rfl rfl) (delayFor_pos hl hd)
    · exact hl.same rfl rfl rfl rfl
  | deposit src d =>
    rcases deposit_sched h with ⟨n, a, _, hd, rfl⟩ | ⟨s1, h1, rfl, _⟩
    · exact (delay_li hq hl (delayFor_pos hl hd)).same rfl rfl rfl rfl
    · obtain ⟨f1, f2, f3, f4, f5, f6⟩ := processDeposit_frame h1
      exact hl.same f6 f2 f5 f3
  | nextBlock =>
    simp only [step, nextBlock, bind_ok, ensure_ok, pure_ok] at h
    obtain ⟨_, _, rfl⟩ := h
    split
    · refine ⟨hl.delay, fun b i hi => ?_⟩
      simp only [List.mem_append, List.mem_singleton]
      rcases hl.due b i hi with h1 | h1
      · omega
      · exact Or.inr (Or.inl h1)
    · rename_i hc
      refine ⟨hl.delay, fun b i hi => ?_⟩
      simp only
      rcases hl.due b i hi with h1 | h1
      · by_cases e : b = s.now + 1
        · exfalso
          apply hc
          refine ⟨?_, hG⟩
          rw [← e]
          cases hb : s.sched b with
          | some l => rfl
          | none =>
            have : i ∈ ([] : List Nat) := by
              have hi' : i ∈ (s.sched b).getD [] := hi
              rw [hb] at hi'; exact hi'
            cases this
        · left; omega
      · exact Or.inr h1
  | idle m =>
    obtain ⟨f, k, he, h2, h3, h4, h5⟩ := idle_spec hq.nodup h
    obtain ⟨_, _, _, fn, fw, fd⟩ := fold_frame c ((queue s).take m) s
    have hw : s'.now = s.now := by rw [he]; exact fw
    have hd : s'.delay = s.delay := by rw [he]; exact fd
    refine ⟨by rw [hd]; exact hl.delay, fun b i hi => ?_⟩
    obtain ⟨j, hj⟩ := h4 b
    have hi' : i ∈ sch s b := by rw [hj] at hi; exact List.mem_of_mem_drop hi
    rw [hw]
    rcases hl.due b i hi' with h6 | h6
    · exact Or.inl h6
    · by_cases hb : b ∈ s'.ready
      · exact Or.inr hb
      · rw [h5 b h6 hb] at hi; cases hi
  | claim b id =>
    obtain ⟨hm, hp, hr, hw, hn, hd, _⟩ := claim_parts h
    refine ⟨by rw [hd]; exact hl.delay, fun b' i hi => ?_⟩
    rw [hr, hw]
    rw [claim_sch h] at hi
    split at hi
    · rename_i e; subst e
      exact hl.due b' i (List.mem_of_mem_erase hi)
    · exact hl.due b' i hi
  | setActive => cases h; exact hl.same rfl rfl rfl rfl
  | setContracts => cases h; exact hl.same rfl rfl rfl rfl
  | setMap => cases h; exact hl.same rfl rfl rfl rfl
  | setDelay a m d =>
    cases h
    refine ⟨fun a' m' d' h' => ?_, hl.due⟩
    simp only [upd_apply] at h'
    split at h'
    · cases h'; exact hG
    · exact hl.delay _ _ _ h'
  | takeAsset =>
    simp only [step, bind_ok, okOr_ok, pure_ok] at h
    obtain ⟨a, ha, rfl⟩ := h
    exact hl.same rfl rfl rfl rfl
  | ledger L => cases h; exact hl.same rfl rfl rfl rfl

theorem Reach.li {c : Cfg} {g s : St} (h : Reach c (Live c) g s) (hg : ∀ a m d, g.delay a = some (m, d) → 0 < d) : LI s := by
  induction h with
  | init hg' => exact ⟨hg, fun b i hi => by simp [sch, hg'.sched] at hi⟩
  | step hr hG hs ih => exact step_li hr.qi ih hG hs

/-! ## the queue moves on -/

/-- The number of payments an operation may execute. -/
def cap : Op → Nat
  | .idle m => m
  | _ => 0

theorem queue_same {s s' : St} (e1 : s'.ready = s.ready) (e2 : s'.sched = s.sched) : queue s' = queue s := by
  have : sch s' = sch s := by funext b; unfold sch; rw [e2]
  unfold queue; rw [e1, this]

theorem queue_delay {s : St} {d : Nat} {p : Payment} (hq : QI s) (hd : 0 < d) : queue (delayPayment s d p) = queue s := by
  by_cases hU : s.nextId + 1 < U64
  · have hr : (delayPayment s d p).ready = s.ready := by unfold delayPayment; rw [if_pos hU]
    unfold queue
    rw [hr]
    refine flatMap_congr' (fun b hb => ?_)
    rw [delay_sch hU, if_neg]
    have h1 := hq.le b hb
    have h2 := hq.now
    omega
  · unfold delayPayment; rw [if_neg hU]

/-- `i` is executed or among the first `n` entries of the queue. -/
def Within (s : St) (i n : Nat) : Prop := s.payments i = none ∨ i ∈ (queue s).take n

theorem erase_take {i j : Nat} : ∀ (l : List Nat) (n : Nat), i ≠ j → i ∈ l.take n → i ∈ (l.erase j).take n
  | [], n, _, h => by simp at h
  | a :: l, 0, _, h => by simp at h
  | a :: l, n + 1, hne, h => by
    rw [List.take_succ_cons] at h
    by_cases e : a = j
    · subst e
      simp only [List.erase_cons_head]
      rcases List.mem_cons.mp h with h | h
      · exact absurd h hne
      · exact (List.take_subset_take_left l (by omega)) h
    · rw [List.erase_cons_tail (by simpa using e), List.take_succ_cons]
      rcases List.mem_cons.mp h with h | h
      · rw [h]; exact List.mem_cons_self
      · exact List.mem_cons_of_mem _ (erase_take l n hne h)

theorem flatMap_erase {f g : Nat → List Nat} {b j : Nat} : ∀ (l : List Nat), l.Nodup → (∀ b', b' ≠ b → g b' = f b') →
    g b = (f b).erase j → (∀ b', b' ≠ b → j ∉ f b') → (b ∈ l → j ∈ f b) → l.flatMap g = (l.flatMap f).erase j
  | [], _, _, _, _, _ => by simp
  | a :: l, hnd, h1, h2, h3, h4 => by
    obtain ⟨ha, hnd'⟩ := List.nodup_cons.mp hnd
    rw [List.flatMap_cons, List.flatMap_cons]
    by_cases e : a = b
    · subst e
      have hj := h4 List.mem_cons_self
      rw [h2, List.erase_append_left _ hj]
      congr 1
      exact flatMap_congr' (fun b' hb' => h1 b' (fun e => ha (e ▸ hb')))
    · rw [h1 a e, List.erase_append_right _ (h3 a e)]
      congr 1
      exact flatMap_erase l hnd' h1 h2 h3 (fun hb => h4 (List.mem_cons_of_mem _ hb))

theorem step_within {c : Cfg} {s s' : St} {op : Op} (hq : QI s) (hl : LI s) (h : step c s op = .ok s')
    {i n : Nat} (hi : i < s.nextId) (hw : Within s i n) : Within s' i (n - cap op) := by
  rcases step_payment hq h hi with ⟨hp, _, _⟩ | ⟨hp, _, _⟩
  · rcases hw with hw | hw
    · exact Or.inl (hp.trans hw)
    · by_cases hnone : s'.payments i = none
      · exact Or.inl hnone
      refine Or.inr ?_
      cases op with
      | withdraw w a x b e =>
        rcases withdraw_sched h with ⟨L, d, t, _, hd, _, rfl⟩ | ⟨L, t, _, _, _, rfl⟩
        · have hq2 : QI { s with ledger := L } := hq.same rfl rfl rfl rfl rfl
          rw [queue_delay hq2 (delayFor_pos hl hd)]; exact hw
        · exact hw
      | deposit src d =>
        rcases deposit_sched h with ⟨n', a, _, hd, rfl⟩ | ⟨s1, h1, rfl, _⟩
        · have : queue (accept (delayPayment s n' (.deposit d)) d) = queue s :=
            (queue_same rfl rfl).trans (queue_delay hq (delayFor_pos hl hd))
          rw [this]; exact hw
        · obtain ⟨f1, f2, f3, f4, f5, f6⟩ := processDeposit_frame h1
          have : queue (accept s1 d) = queue s := queue_same f3 f2
          rw [this]; exact hw
      | nextBlock =>
        simp only [step, nextBlock, bind_ok, ensure_ok, pure_ok] at h
        obtain ⟨_, _, rfl⟩ := h
        split
        · have : queue { s with
              now := s.now + 1
              ready := s.ready ++ [s.now + 1] } = queue s ++ [s.now + 1].flatMap (sch s) := by
            unfold queue; exact List.flatMap_append
          rw [this]
          simp only [cap, Nat.sub_zero]
          rw [List.take_append]
          exact List.mem_append_left _ hw
        · exact hw
      | idle m =>
        obtain ⟨f, k, he, h2, _⟩ := idle_spec hq.nodup h
        have hnt : i ∉ (queue s).take m := by
          intro ht
          have := idle_payments hq h i
          rw [if_pos ht] at this
          exact hnone this
        rw [h2]
        simp only [cap]
        by_cases hmn : n ≤ m
        · exact absurd ((List.take_subset_take_left _ hmn) hw) hnt
        · have : (queue s).take n = (queue s).take m ++ ((queue s).drop m).take (n - m) := by
            rw [← List.take_add]; congr 1; omega
          rw [this] at hw
          rcases List.mem_append.mp hw with hw | hw
          · exact absurd hw hnt
          · exact hw
      | claim b id =>
        obtain ⟨hm, hp', hr, _, _, _, _⟩ := claim_parts h
        have hne : i ≠ id := by
          rintro rfl
          rw [hp', upd_same] at hnone; exact hnone rfl
        have hqe : queue s' = (queue s).erase id := by
          unfold queue
          rw [hr]
          refine flatMap_erase (b := b) s.ready hq.nodup (fun b' hb' => by rw [claim_sch h, if_neg hb'])
            (by rw [claim_sch h, if_pos rfl]) (fun b' hb' hj => hb' (hq.uniq id b' b hj hm)) (fun _ => hm)
        rw [hqe]
        exact erase_take _ _ hne hw
      | setActive => cases h; exact hw
      | setContracts => cases h; exact hw
      | setMap => cases h; exact hw
      | setDelay => cases h; exact hw
      | takeAsset =>
        simp only [step, bind_ok, okOr_ok, pure_ok] at h
        obtain ⟨a, ha, rfl⟩ := h
        exact hw
      | ledger L => cases h; exact hw
  · exact Or.inl hp

end Verif.Erc20Peg
