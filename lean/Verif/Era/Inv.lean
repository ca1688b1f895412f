import Verif.Era.Model

namespace Verif.Era

/-- Where the active era stands: it began with session `a`. -/
structure Eras (c : Cfg) (s : St) (a : Nat) : Prop where
  start : s.start s.active = some a
  lo : a ≤ s.index
  hi : s.index < a + c.spe
  early : s.index + 1 < a + c.spe → s.planned = s.active
  last : s.index + 1 = a + c.spe → s.planned = s.active + 1 ∧ s.start (s.active + 1) = some (a + c.spe)
  none : ∀ k, s.planned < k → s.start k = none
  force : s.force = .notForcing

/-- How far a handover is: none, the next notaries are told, or the new ones wait for the scheduler. -/
inductive Mode (c : Cfg) (s : St) : Prop
  | idle : s.sched = [] → s.notary = s.born → s.changed = false → s.paused = false → (∀ p ∈ s.sent, p.1 ≤ s.setId) →
      (∀ b, s.nextChange = some b → isFinal c s = true ∧ b = s.began + (c.epoch - c.delay)) → Mode c s
  | told : s.sched = [] → s.notary = s.born → isFinal c s = true → s.nextChange = none → s.paused = true →
      s.changed = fits s.nextKeys → s.began + (c.epoch - c.delay) ≤ s.block →
      (fits s.nextKeys = true → (s.setId + 1, s.nextKeys) ∈ s.sent) →
      (∀ p ∈ s.sent, p.1 ≤ s.setId ∨ (s.changed = true ∧ p = (s.setId + 1, s.nextKeys))) → Mode c s
  | pending : s.sched = [(s.bornAt + c.delay, s.born)] → s.block < s.bornAt + c.delay → s.began = s.bornAt →
      isFinal c s = false → s.nextChange = none → s.paused = true → s.changed = fits s.born →
      (fits s.born = true → (s.setId + 1, s.born) ∈ s.sent) →
      (∀ p ∈ s.sent, p.1 ≤ s.setId ∨ (s.changed = true ∧ p = (s.setId + 1, s.born))) → Mode c s

structure Inv (c : Cfg) (s : St) : Prop where
  eras : ∃ a, Eras c s a
  keys : s.index ≠ 0 → s.nextKeys = s.queued
  mode : Mode c s
  made : ∀ p ∈ s.made, p.1 ≤ s.setId ∧ (fits p.2 = true → p ∈ s.sent)

theorem final_iff {c : Cfg} {s : St} {a : Nat} (h : Eras c s a) : isFinal c s = true ↔ s.index + 1 = a + c.spe := by
  unfold isFinal
  rw [h.start, h.force]
  simp only [Bool.or_false, decide_eq_true_eq]
  have := h.lo
  have := h.hi
  omega

theorem final_iff' {c : Cfg} {s : St} {a : Nat} (h : s.start s.active = some a) (hf : s.force = .notForcing) :
    isFinal c s = true ↔ s.index = a + (c.spe - 1) := by
  unfold isFinal
  rw [h, hf]
  simp only [Bool.or_false, decide_eq_true_eq]

theorem genesis_inv {c : Cfg} {s : St} (hc : 2 ≤ c.spe) (h : Genesis s) : Inv c s := by
  refine ⟨⟨0, ?_, Nat.zero_le _, ?_, fun _ => ?_, fun q => ?_, fun k hk => ?_, h.force⟩, fun q => absurd h.index q, ?_, ?_⟩
  · rw [h.start, h.active]; rfl
  · rw [h.index]; omega
  · rw [h.planned, h.active]
  · rw [h.index] at q; omega
  · rw [h.planned] at hk
    rw [h.start]
    exact if_neg (by omega)
  · refine .idle h.sched (h.notary.trans h.born.symm) h.changed h.paused ?_ ?_
    · rw [h.sent]; intro p hp; cases hp
    · rw [h.nextChange]; intro b hb; cases hb
  · rw [h.made]; intro p hp; cases hp

theorem tick_inv {c : Cfg} {s : St} (h : Inv c s) : Inv c (runSched { s with block := s.block + 1 }) := by
  have hE : ∀ {s' : St}, s'.start = s.start → s'.active = s.active → s'.index = s.index → s'.planned = s.planned → s'.force = s.force →
      ∃ a, Eras c s' a := by
    intro s' e1 e2 e3 e4 e5
    obtain ⟨a, h1, h2, h3, h4, h5, h6, h7⟩ := h.eras
    exact ⟨a, by rw [e1, e2]; exact h1, by rw [e3]; exact h2, by rw [e3]; exact h3, by rw [e3, e4, e2]; exact h4,
      by rw [e3, e4, e2, e1]; exact h5, by rw [e4, e1]; exact h6, by rw [e5]; exact h7⟩
  cases h.mode with
  | idle h1 h2 h3 h4 h5 h6 =>
    have e : runSched { s with block := s.block + 1 } = { s with block := s.block + 1 } := by
      unfold runSched
      simp only [h1, List.filter_nil, List.foldl_nil]
    rw [e]
    exact ⟨hE rfl rfl rfl rfl rfl, h.keys, .idle h1 h2 h3 h4 h5 h6, h.made⟩
  | told h1 h2 h3 h4 h5 h6 h7 h8 h9 =>
    have e : runSched { s with block := s.block + 1 } = { s with block := s.block + 1 } := by
      unfold runSched
      simp only [h1, List.filter_nil, List.foldl_nil]
    rw [e]
    exact ⟨hE rfl rfl rfl rfl rfl, h.keys, .told h1 h2 h3 h4 h5 h6 (Nat.le_succ_of_le h7) h8 h9, h.made⟩
  | pending h1 h2 h3 h4 h5 h6 h7 h8 h9 =>
    by_cases hb : s.bornAt + c.delay = s.block + 1
    · have e : runSched { s with block := s.block + 1 } = finalise { s with
          block := s.block + 1
          sched := [] } s.born := by
        unfold runSched
        simp only [h1, hb, List.filter_cons, List.filter_nil, List.foldl_cons, List.foldl_nil, decide_true, ne_eq, not_true, decide_false,
          if_true, Bool.false_eq_true, if_false]
      rw [e]
      refine ⟨hE rfl rfl rfl rfl rfl, h.keys, .idle rfl rfl rfl rfl ?_ ?_, ?_⟩
      · intro p hp
        rcases h9 p hp with q | ⟨_, q⟩
        · exact Nat.le_succ_of_le q
        · rw [q]; exact Nat.le_refl _
      · intro b q
        change s.nextChange = some b at q
        rw [h5] at q
        cases q
      · intro p hp
        rcases List.mem_cons.1 hp with q | q
        · subst q
          exact ⟨Nat.le_refl _, h8⟩
        · exact ⟨Nat.le_succ_of_le (h.made p q).1, (h.made p q).2⟩
    · have e : runSched { s with block := s.block + 1 } = { s with block := s.block + 1 } := by
        unfold runSched
        simp only [h1, hb, List.filter_cons, List.filter_nil, List.foldl_nil, decide_true, ne_eq, not_false_eq_true, decide_false, if_true,
          Bool.false_eq_true, if_false]
      rw [e]
      exact ⟨hE rfl rfl rfl rfl rfl, h.keys, .pending h1 (by show s.block + 1 < s.bornAt + c.delay; omega) h3 h4 h5 h6 h7 h8 h9, h.made⟩

theorem due_inv {c : Cfg} {s : St} (h : Inv c s) : Inv c (dueChange s) := by
  unfold dueChange
  split
  · rename_i hb
    have hE : ∃ a, Eras c (handle s) a := by
      obtain ⟨a, h1, h2, h3, h4, h5, h6, h7⟩ := h.eras
      exact ⟨a, h1, h2, h3, h4, h5, h6, h7⟩
    cases h.mode with
    | idle h1 h2 h3 h4 h5 h6 =>
      obtain ⟨hf, e⟩ := h6 _ hb
      refine ⟨hE, h.keys, .told h1 h2 hf rfl rfl ?_ (Nat.le_of_eq e.symm) ?_ ?_, ?_⟩
      · show (s.changed || fits s.nextKeys) = fits s.nextKeys
        rw [h3, Bool.false_or]
      · intro q
        change fits s.nextKeys = true at q
        show _ ∈ (if fits s.nextKeys then _ else _)
        rw [if_pos q]
        exact List.mem_cons_self
      · intro p hp
        change p ∈ (if fits s.nextKeys then _ else _) at hp
        by_cases q : fits s.nextKeys = true
        · rw [if_pos q] at hp
          rcases List.mem_cons.1 hp with e' | e'
          · right
            exact ⟨by show (s.changed || fits s.nextKeys) = true; rw [q, Bool.or_true], e'⟩
          · exact .inl (h5 p e')
        · rw [if_neg q] at hp
          exact .inl (h5 p hp)
      · intro p hp
        refine ⟨(h.made p hp).1, fun q => ?_⟩
        show _ ∈ (if fits s.nextKeys then _ else _)
        split
        · exact List.mem_cons_of_mem _ ((h.made p hp).2 q)
        · exact (h.made p hp).2 q
    | told h1 h2 h3 h4 => rw [h4] at hb; cases hb
    | pending h1 h2 h3 h4 h5 => rw [h5] at hb; cases hb
  · exact h

/-- The end of a session that is not the last of its era. -/
theorem rotate_early {c : Cfg} {s : St} {r : Rot} {a : Nat} (h : Inv c s) (hE : Eras c s a) (hl : s.index + 1 < a + c.spe)
    (hw : r.win.isSome = true) (hlong : s.began + c.delay < s.block) : Inv c (rotate c s r) := by
  have hnf : isFinal c s = false := by
    have := final_iff hE
    cases q : isFinal c s with
    | false => rfl
    | true => exact absurd (this.1 q) (by omega)
  have hp := hE.early hl
  have hnone := hE.none (s.active + 1) (by omega)
  have hlo := hE.lo
  cases h.mode with
  | told _ _ h3 => rw [hnf] at h3; cases h3
  | pending h1 h2 h3 => omega
  | idle h1 h2 h3 h4 h5 h6 =>
    have hnc : s.nextChange = none := by
      cases q : s.nextChange with
      | none => rfl
      | some b => have := (h6 b q).1; rw [hnf] at this; cases this
    have e1 : ending c s r.sch = s := by unfold ending; rw [hnf]; rfl
    have e2 : startSession (advance s) = advance s := by
      unfold startSession
      show (match s.start (s.active + 1) with
        | some a => _
        | none => advance s) = _
      rw [hnone]
    by_cases hlast : s.index + 2 = a + c.spe
    · obtain ⟨keys, hk⟩ := Option.isSome_iff_exists.1 hw
      have e3 : plan c { advance s with queued := r.same } r.win = { advance s with
          planned := s.planned + 1
          start := upd s.start (s.planned + 1) (some (s.index + 2))
          queued := keys
          force := .notForcing } := by
        unfold plan
        have hcond : c.spe ≤ s.index + 1 + 1 - (s.start s.planned).getD 0 := by
          rw [hp, hE.start]
          show c.spe ≤ s.index + 1 + 1 - a
          omega
        rw [if_pos (.inr (.inr ⟨hE.force, hcond⟩)), hk]
        show ({ advance s with
          planned := s.planned + 1
          start := upd s.start (s.planned + 1) (some (s.index + 2))
          queued := keys
          force := if s.force = .forceNew then .notForcing else s.force } : St) = _
        rw [hE.force]
        rfl
      have hst : upd s.start (s.planned + 1) (some (s.index + 2)) s.active = some a := by
        rw [upd_ne _ _ (by omega)]; exact hE.start
      have hfin : isFinal c { advance s with
          planned := s.planned + 1
          start := upd s.start (s.planned + 1) (some (s.index + 2))
          queued := keys
          force := .notForcing } = true := by
        rw [final_iff' (a := a) hst rfl]
        show s.index + 1 = _
        omega
      unfold rotate
      rw [e1, e2, e3]
      unfold onNew
      rw [if_pos hfin]
      refine ⟨⟨a, hst, by show a ≤ s.index + 1; omega, by show s.index + 1 < _; omega, fun q => ?_, fun _ => ⟨?_, ?_⟩, fun k hk => ?_, rfl⟩,
        fun _ => rfl, .idle h1 h2 h3 h4 h5 fun b hb => ⟨hfin, (Option.some.inj hb).symm⟩, h.made⟩
      · change s.index + 1 + 1 < _ at q
        omega
      · show s.planned + 1 = s.active + 1
        rw [hp]
      · show upd s.start (s.planned + 1) _ (s.active + 1) = _
        rw [hp, upd_same, hlast]
      · change s.planned + 1 < k at hk
        show upd s.start (s.planned + 1) _ k = none
        rw [upd_ne _ _ (by omega)]
        exact hE.none k (by omega)
    · have e3 : plan c { advance s with queued := r.same } r.win = { advance s with queued := r.same } := by
        unfold plan
        have hcond : ¬ c.spe ≤ s.index + 1 + 1 - (s.start s.planned).getD 0 := by
          rw [hp, hE.start]
          show ¬ c.spe ≤ s.index + 1 + 1 - a
          omega
        refine if_neg ?_
        rintro (q | q | q)
        · change s.force = _ at q
          rw [hE.force] at q
          cases q
        · change s.force = _ at q
          rw [hE.force] at q
          cases q
        · exact hcond q.2
      have hfin : isFinal c { advance s with queued := r.same } = false := by
        cases q : isFinal c { advance s with queued := r.same } with
        | false => rfl
        | true =>
          have q' := (final_iff' (s := { advance s with queued := r.same }) (a := a) hE.start hE.force).1 q
          change s.index + 1 = _ at q'
          omega
      unfold rotate
      rw [e1, e2, e3]
      unfold onNew
      rw [hfin]
      refine ⟨⟨a, hE.start, by show a ≤ s.index + 1; omega, by show s.index + 1 < _; omega, fun _ => hp, fun q => ?_, hE.none, hE.force⟩,
        fun _ => rfl, .idle h1 h2 h3 h4 h5 fun b hb => ?_, h.made⟩
      · change s.index + 1 + 1 = _ at q
        omega
      · change s.nextChange = some b at hb
        rw [hnc] at hb
        cases hb

/-- The first session of an era, after its end was met in state `s`. -/
theorem rotate_last {c : Cfg} {s : St} {r : Rot} {a : Nat} (hc : 2 ≤ c.spe) (hd : 0 < c.delay) (h : Inv c s) (hE : Eras c s a)
    (hl : s.index + 1 = a + c.spe) (hs : r.sch = true) (hlong : s.began + c.delay < s.block) : Inv c (rotate c s r) := by
  have hf : isFinal c s = true := (final_iff hE).2 hl
  obtain ⟨hp, hst⟩ := hE.last hl
  have hlo := hE.lo
  have hkeys : s.nextKeys = s.queued := h.keys (by omega)
  -- everything after the end of the session, for any state that differs from `s` only in what the bridge stores
  have key : ∀ s1 : St, s1.index = s.index → s1.start = s.start → s1.active = s.active → s1.planned = s.planned → s1.force = s.force →
      s1.queued = s.queued → s1.block = s.block → s1.nextChange = none →
      rotate c s r = onNew c (plan c { startSession (advance s1) with queued := r.same } r.win) →
      rotate c s r = { s1 with
        vals := s.queued
        index := s.index + 1
        began := s.block
        active := s.active + 1
        born := s.queued
        bornAt := s.block
        queued := r.same
        nextKeys := r.same } ∧ (∃ a, Eras c (rotate c s r) a) ∧ isFinal c (rotate c s r) = false := by
    intro s1 i1 i2 i3 i4 i5 i6 i7 i8 e
    have e2 : startSession (advance s1) = { s1 with
        vals := s.queued
        index := s.index + 1
        began := s.block
        active := s.active + 1
        born := s.queued
        bornAt := s.block } := by
      unfold startSession
      show (match s1.start (s1.active + 1) with
        | some a => _
        | none => advance s1) = _
      rw [i2, i3, hst]
      show (if a + c.spe ≤ s1.index + 1 then _ else _) = _
      rw [if_pos (by rw [i1]; omega)]
      unfold advance
      dsimp only
      rw [i1, i2, i3, i6, i7]
    rw [e2] at e
    dsimp only at e
    have e3 : ∀ s2 : St, s2.force = .notForcing → s2.index = s.index + 1 → s2.start s2.planned = some (a + c.spe) →
        plan c s2 r.win = s2 := by
      intro s2 j1 j2 j3
      unfold plan
      refine if_neg ?_
      rw [j1, j2, j3]
      show ¬ (_ ∨ _ ∨ (_ ∧ c.spe ≤ s.index + 1 + 1 - (a + c.spe)))
      rintro (q | q | q)
      · cases q
      · cases q
      · omega
    rw [e3 { s1 with
        vals := s.queued
        index := s.index + 1
        began := s.block
        active := s.active + 1
        born := s.queued
        bornAt := s.block
        queued := r.same } (i5.trans hE.force) rfl (by show s1.start s1.planned = _; rw [i2, i4, hp]; exact hst)] at e
    have hfin : isFinal c { s1 with
        vals := s.queued
        index := s.index + 1
        began := s.block
        active := s.active + 1
        born := s.queued
        bornAt := s.block
        queued := r.same } = false := by
      cases q : isFinal c { s1 with
        vals := s.queued
        index := s.index + 1
        began := s.block
        active := s.active + 1
        born := s.queued
        bornAt := s.block
        queued := r.same } with
      | false => rfl
      | true =>
        have q' := (final_iff' (s := { s1 with
          vals := s.queued
          index := s.index + 1
          began := s.block
          active := s.active + 1
          born := s.queued
          bornAt := s.block
          queued := r.same }) (a := a + c.spe) (by show s1.start (s.active + 1) = _; rw [i2]; exact hst) (i5.trans hE.force)).1 q
        change s.index + 1 = _ at q'
        omega
    unfold onNew at e
    rw [hfin] at e
    have e4 : rotate c s r = { s1 with
        vals := s.queued
        index := s.index + 1
        began := s.block
        active := s.active + 1
        born := s.queued
        bornAt := s.block
        queued := r.same
        nextKeys := r.same } := e
    refine ⟨e4, ?_, ?_⟩
    · rw [e4]
      refine ⟨a + c.spe, by show s1.start (s.active + 1) = _; rw [i2]; exact hst, by show _ ≤ s.index + 1; omega,
        by show s.index + 1 < _; omega, fun _ => ?_, fun q => ?_, fun k hk => ?_, i5.trans hE.force⟩
      · show s1.planned = s.active + 1
        rw [i4, hp]
      · change s.index + 1 + 1 = _ at q
        omega
      · change s1.planned < k at hk
        show s1.start k = none
        rw [i2]
        exact hE.none k (by rw [← i4]; exact hk)
    · rw [e4]
      exact hfin
  have told : ∀ (hch : s.changed = true) (_ : s.nextChange = none) (_ : s.sched = []) (_ : fits s.nextKeys = true → (s.setId + 1, s.nextKeys) ∈ s.sent)
      (_ : ∀ p ∈ s.sent, p.1 ≤ s.setId ∨ (s.changed = true ∧ p = (s.setId + 1, s.nextKeys))), Inv c (rotate c s r) := by
    intro hch hn h1 h8 h9
    obtain ⟨e, hE', hf'⟩ := key (finalise s s.nextKeys) rfl rfl rfl rfl rfl rfl rfl hn
      (by unfold rotate ending; rw [if_pos hf, if_pos hch])
    refine ⟨hE', fun _ => by rw [e], ?_, ?_⟩
    · refine .idle (by rw [e]; exact h1) (by rw [e]; exact hkeys) (by rw [e]; rfl) (by rw [e]; rfl) (fun p hp => ?_) (fun b hb => ?_)
      · rw [e] at hp ⊢
        show p.1 ≤ s.setId + 1
        rcases h9 p hp with q | ⟨_, q⟩
        · exact Nat.le_succ_of_le q
        · rw [q]
      · rw [e] at hb
        change s.nextChange = some b at hb
        rw [hn] at hb
        cases hb
    · intro p hp'
      rw [e] at hp' ⊢
      change p ∈ (s.setId + 1, s.nextKeys) :: s.made at hp'
      show p.1 ≤ s.setId + 1 ∧ (fits p.2 = true → p ∈ s.sent)
      rcases List.mem_cons.1 hp' with q | q
      · subst q
        exact ⟨Nat.le_refl _, h8⟩
      · exact ⟨Nat.le_succ_of_le (h.made p q).1, (h.made p q).2⟩
  have wait : ∀ (_ : s.changed = false) (_ : s.sched = []) (_ : ∀ p ∈ s.sent, p.1 ≤ s.setId), Inv c (rotate c s r) := by
    intro hch h1 h9
    obtain ⟨e, hE', hf'⟩ := key { handle s with sched := [(s.block + c.delay, s.nextKeys)] } rfl rfl rfl rfl rfl rfl rfl rfl
      (by unfold rotate ending; rw [if_pos hf, hch, hs, h1]; rfl)
    have es : (rotate c s r).sent = if fits s.nextKeys then (s.setId + 1, s.nextKeys) :: s.sent else s.sent := by rw [e]; rfl
    have ei : (rotate c s r).setId = s.setId := by rw [e]; rfl
    have eb : (rotate c s r).born = s.nextKeys := by rw [e, hkeys]
    have ec : (rotate c s r).changed = fits s.nextKeys := by
      rw [e]
      show (s.changed || fits s.nextKeys) = _
      rw [hch, Bool.false_or]
    refine ⟨hE', fun _ => by rw [e], ?_, ?_⟩
    · refine .pending (by rw [eb, e]) (by rw [e]; show s.block < s.block + c.delay; omega) (by rw [e]) hf' (by rw [e]; rfl) (by rw [e]; rfl)
        (by rw [eb, ec]) ?_ ?_
      · intro q
        rw [eb] at q ⊢
        rw [ei, es, if_pos q]
        exact List.mem_cons_self
      · intro p hp'
        rw [ei, ec, eb]
        rw [es] at hp'
        by_cases q : fits s.nextKeys = true
        · rw [if_pos q] at hp'
          rcases List.mem_cons.1 hp' with e' | e'
          · exact .inr ⟨q, e'⟩
          · exact .inl (h9 p e')
        · rw [if_neg q] at hp'
          exact .inl (h9 p hp')
    · intro p hp'
      have em : (rotate c s r).made = s.made := by rw [e]; rfl
      rw [em] at hp'
      rw [ei, es]
      refine ⟨(h.made p hp').1, fun q => ?_⟩
      split
      · exact List.mem_cons_of_mem _ ((h.made p hp').2 q)
      · exact (h.made p hp').2 q
  cases h.mode with
  | idle h1 h2 h3 h4 h5 h6 => exact wait h3 h1 h5
  | told h1 h2 h3 h4 h5 h6 h7 h8 h9 =>
    cases hch : s.changed with
    | true => exact told hch h4 h1 h8 h9
    | false =>
      refine wait hch h1 fun p hp' => ?_
      rcases h9 p hp' with q | ⟨q, _⟩
      · exact q
      · rw [hch] at q; cases q
  | pending h1 h2 h3 => omega

theorem rotate_inv {c : Cfg} {s : St} {r : Rot} (hc : 2 ≤ c.spe) (hd : 0 < c.delay) (h : Inv c s) (hop : Calm c s (.block (some r))) :
    Inv c (rotate c (runSched { s with block := s.block + 1 }) r) := by
  obtain ⟨h1, h2, h3⟩ := hop
  have ht := tick_inv h
  have e : (runSched { s with block := s.block + 1 }).block = s.block + 1 ∧ (runSched { s with block := s.block + 1 }).began = s.began := by
    unfold runSched
    generalize s.sched.filter _ = l
    have : ∀ (l : List (Nat × List Key)) (s : St), (l.foldl (fun s p => finalise s p.2) s).block = s.block ∧
        (l.foldl (fun s p => finalise s p.2) s).began = s.began := by
      intro l
      induction l with
      | nil => intro s; exact ⟨rfl, rfl⟩
      | cons p l ih => intro s; exact ih _
    exact this _ _
  have hlong : (runSched { s with block := s.block + 1 }).began + c.delay < (runSched { s with block := s.block + 1 }).block := by
    rw [e.1, e.2]; exact h3
  obtain ⟨a, hE⟩ := ht.eras
  by_cases hl : (runSched { s with block := s.block + 1 }).index + 1 < a + c.spe
  · exact rotate_early ht hE hl h1 hlong
  · have := hE.hi
    exact rotate_last hc hd ht hE (by omega) h2 hlong

theorem step_inv {c : Cfg} {s : St} {op : Op} (hc : 2 ≤ c.spe) (hd : 0 < c.delay) (h : Inv c s) (hop : Calm c s op) : Inv c (step c s op) := by
  cases op with
  | force f => exact hop.elim
  | block r =>
    cases r with
    | none => exact due_inv (tick_inv h)
    | some r => exact due_inv (rotate_inv hc hd h hop)

theorem reach_inv {c : Cfg} {s : St} (hc : 2 ≤ c.spe) (hd : 0 < c.delay) (h : Reach c (Calm c) s) : Inv c s := by
  induction h with
  | init hg => exact genesis_inv hc hg
  | step _ hop ih => exact step_inv hc hd ih hop

end Verif.Era
