import Verif.Ethy.Track

/-! # Schedules: when a claim is delivered -/

namespace Verif.Ethy

/-! ## The loop of `on_initialize` -/

theorem processOne_status {acc : Loop} {x id : Nat} {st : Status}
    (h : (processOne acc x).s.status id = some st) : acc.s.status id = some st := by
  rcases processOne_cases acc x with ⟨_, e⟩ | ⟨hst, m, e⟩ <;> rw [e] at h
  · exact h
  · dsimp only at h
    by_cases hi : id = x
    · subst hi; rw [upd_same] at h; cases h
    · rwa [upd_ne _ _ hi] at h

theorem processOne_challenged {acc : Loop} {x id : Nat} (h : acc.s.status id = some .challenged) :
    (processOne acc x).s.status id = some .challenged := by
  rcases processOne_cases acc x with ⟨_, e⟩ | ⟨hst, m, e⟩ <;> rw [e]
  · exact h
  · dsimp only
    have hi : id ≠ x := by rintro rfl; exact hst h
    rwa [upd_ne _ _ hi]

theorem processOne_claims {acc : Loop} {x id cl : Nat} (h : (processOne acc x).s.claims id = some cl) :
    acc.s.claims id = some cl := by
  rcases processOne_cases acc x with ⟨_, e⟩ | ⟨hst, m, e⟩ <;> rw [e] at h
  · exact h
  · rcases deliver_cases acc.s x with ⟨_, e⟩ | ⟨cl', _, e⟩ <;> rw [e] at h
    · exact h
    · dsimp only at h
      by_cases hi : id = x
      · subst hi; rw [upd_same] at h; cases h
      · rwa [upd_ne _ _ hi] at h

/-- A claim kept by one round. -/
theorem processOne_keep {acc : Loop} {x id cl : Nat} (h : acc.s.claims id = some cl) :
    ((processOne acc x).s.claims id = some cl ∧ (processOne acc x).s.status id = acc.s.status id ∧
      (acc.s.status id ≠ some .challenged → id ≠ x)) ∨
    (acc.s.status id ≠ some .challenged ∧ id = x ∧
      Ev.delivered id cl acc.s.now ∈ (processOne acc x).s.log) := by
  rcases processOne_cases acc x with ⟨hst, e⟩ | ⟨hst, m, e⟩ <;> rw [e]
  · exact Or.inl ⟨h, rfl, fun hn hx => hn (by rw [hx]; exact hst)⟩
  · by_cases hi : id = x
    · right
      subst hi
      refine ⟨hst, rfl, ?_⟩
      rcases deliver_cases acc.s id with ⟨e0, _⟩ | ⟨cl', e1, e⟩
      · rw [e0] at h; cases h
      · rw [e]; rw [e1] at h; cases h; exact List.mem_cons_self
    · left
      refine ⟨?_, upd_ne _ _ hi, fun _ => hi⟩
      rcases deliver_cases acc.s x with ⟨_, e⟩ | ⟨cl', _, e⟩ <;> rw [e]
      · exact h
      · dsimp only; rwa [upd_ne _ _ hi]

theorem processOne_log (acc : Loop) (x : Nat) :
    (processOne acc x).s.log = acc.s.log ∨
    ∃ cl, acc.s.claims x = some cl ∧ acc.s.status x ≠ some .challenged ∧
      (processOne acc x).s.log = .delivered x cl acc.s.now :: acc.s.log := by
  rcases processOne_cases acc x with ⟨_, e⟩ | ⟨hst, m, e⟩ <;> rw [e]
  · exact Or.inl rfl
  · rcases deliver_cases acc.s x with ⟨_, e⟩ | ⟨cl', hc, e⟩ <;> rw [e]
    · exact Or.inl rfl
    · exact Or.inr ⟨cl', hc, hst, rfl⟩

theorem processOne_validAt (acc : Loop) (x b : Nat) :
    (processOne acc x).s.validAt b = acc.s.validAt b ∨
    (b = acc.s.now + acc.s.period ∧ acc.s.status x = some .challenged ∧
      (processOne acc x).s.validAt b = acc.s.validAt b ++ [x]) := by
  rcases processOne_cases acc x with ⟨hst, e⟩ | ⟨hst, m, e⟩ <;> rw [e]
  · dsimp only
    by_cases hb : b = acc.s.now + acc.s.period
    · subst hb; exact Or.inr ⟨rfl, hst, upd_same _ _ _⟩
    · exact Or.inl (upd_ne _ _ hb)
  · rcases deliver_cases acc.s x with ⟨_, e⟩ | ⟨cl', hc, e⟩ <;> rw [e] <;> exact Or.inl rfl

theorem loop_status {id : Nat} {st : Status} : ∀ {l : List Nat} {acc : Loop},
    (l.foldl processOne acc).s.status id = some st → acc.s.status id = some st
  | [], _, h => h
  | _ :: _, _, h => processOne_status (loop_status h)

theorem loop_claims {id cl : Nat} : ∀ {l : List Nat} {acc : Loop},
    (l.foldl processOne acc).s.claims id = some cl → acc.s.claims id = some cl
  | [], _, h => h
  | _ :: _, _, h => processOne_claims (loop_claims h)

theorem processOne_log_mem {acc : Loop} {x : Nat} {e : Ev} (h : e ∈ acc.s.log) :
    e ∈ (processOne acc x).s.log := by
  rcases processOne_log acc x with h1 | ⟨cl, _, _, h1⟩ <;> rw [h1]
  · exact h
  · exact List.mem_cons_of_mem _ h

theorem loop_log_mem {e : Ev} : ∀ {l : List Nat} {acc : Loop}, e ∈ acc.s.log →
    e ∈ (l.foldl processOne acc).s.log
  | [], _, h => h
  | _ :: xs, _, h => loop_log_mem (l := xs) (processOne_log_mem h)

/-- What the loop adds to the log: deliveries of listed, unchallenged, pending claims. -/
theorem loop_log : ∀ (l : List Nat) (acc : Loop), ∃ ext, (l.foldl processOne acc).s.log = ext ++ acc.s.log ∧
    ∀ e ∈ ext, ∃ id cl, e = Ev.delivered id cl acc.s.now ∧ id ∈ l ∧ acc.s.status id ≠ some .challenged ∧
      acc.s.claims id = some cl
  | [], acc => ⟨[], rfl, by simp⟩
  | x :: xs, acc => by
    obtain ⟨ext, h1, h2⟩ := loop_log xs (processOne acc x)
    have hnow := (processOne_kept acc x).now
    have lift : ∀ e ∈ ext, ∃ id cl, e = Ev.delivered id cl acc.s.now ∧ id ∈ x :: xs ∧
        acc.s.status id ≠ some .challenged ∧ acc.s.claims id = some cl := by
      intro e he
      obtain ⟨id, cl, rfl, hm, hst, hc⟩ := h2 e he
      exact ⟨id, cl, by rw [hnow], List.mem_cons_of_mem _ hm,
        fun hh => hst (processOne_challenged hh), processOne_claims hc⟩
    simp only [List.foldl_cons]
    rcases processOne_log acc x with h3 | ⟨cl, hc, hst, h3⟩
    · exact ⟨ext, by rw [h1, h3], lift⟩
    · refine ⟨ext ++ [.delivered x cl acc.s.now], by rw [h1, h3]; simp, ?_⟩
      intro e he
      rcases List.mem_append.mp he with he | he
      · exact lift e he
      · simp only [List.mem_cons, List.not_mem_nil, or_false] at he
        exact ⟨x, cl, he, List.mem_cons_self, hst, hc⟩

theorem loop_validAt_sub {id b : Nat} : ∀ {l : List Nat} {acc : Loop},
    id ∈ (l.foldl processOne acc).s.validAt b →
    id ∈ acc.s.validAt b ∨ (id ∈ l ∧ b = acc.s.now + acc.s.period)
  | [], _, h => Or.inl h
  | x :: xs, acc, h => by
    have hk := processOne_kept acc x
    rcases loop_validAt_sub (l := xs) (acc := processOne acc x) h with h | ⟨h1, h2⟩
    · rcases processOne_validAt acc x b with h3 | ⟨h3, _, h4⟩
      · rw [h3] at h; exact Or.inl h
      · rw [h4] at h
        rcases List.mem_append.mp h with h | h
        · exact Or.inl h
        · simp only [List.mem_cons, List.not_mem_nil, or_false] at h
          subst h; exact Or.inr ⟨List.mem_cons_self, h3⟩
    · rw [hk.now, hk.period] at h2
      exact Or.inr ⟨List.mem_cons_of_mem _ h1, h2⟩

theorem loop_validAt_mono {id b : Nat} : ∀ {l : List Nat} {acc : Loop}, id ∈ acc.s.validAt b →
    id ∈ (l.foldl processOne acc).s.validAt b
  | [], _, h => h
  | x :: xs, acc, h => by
    apply loop_validAt_mono (l := xs)
    rcases processOne_validAt acc x b with h3 | ⟨_, _, h4⟩
    · rw [h3]; exact h
    · rw [h4]; exact List.mem_append_left _ h

/-- A pending claim survives the loop, or is delivered by it; it is delivered if it is listed and not
challenged. -/
theorem loop_keep {id cl : Nat} : ∀ {l : List Nat} {acc : Loop}, acc.s.claims id = some cl →
    ((l.foldl processOne acc).s.claims id = some cl ∧
      (l.foldl processOne acc).s.status id = acc.s.status id ∧
      (acc.s.status id ≠ some .challenged → id ∉ l)) ∨
    (acc.s.status id ≠ some .challenged ∧ id ∈ l ∧
      Ev.delivered id cl acc.s.now ∈ (l.foldl processOne acc).s.log)
  | [], _, h => Or.inl ⟨h, rfl, by simp⟩
  | x :: xs, acc, h => by
    rcases processOne_keep (x := x) h with ⟨h1, h2, h3⟩ | ⟨h1, h2, h3⟩
    · rcases loop_keep (l := xs) h1 with ⟨g1, g2, g3⟩ | ⟨g1, g2, g3⟩
      · refine Or.inl ⟨g1, g2.trans h2, ?_⟩
        intro hn
        simp only [List.mem_cons, not_or]
        exact ⟨h3 hn, g3 (by rw [h2]; exact hn)⟩
      · rw [(processOne_kept acc x).now] at g3
        exact Or.inr ⟨by rw [← h2]; exact g1, List.mem_cons_of_mem _ g2, g3⟩
    · exact Or.inr ⟨h1, by rw [h2]; exact List.mem_cons_self, loop_log_mem (l := xs) h3⟩

theorem loop_reschedules {id : Nat} : ∀ {l : List Nat} {acc : Loop}, acc.s.status id = some .challenged →
    id ∈ l → id ∈ (l.foldl processOne acc).s.validAt (acc.s.now + acc.s.period)
  | x :: xs, acc, h, hm => by
    have hk := processOne_kept acc x
    by_cases hx : id ∈ xs
    · have := loop_reschedules (l := xs) (processOne_challenged (x := x) h) hx
      rwa [hk.now, hk.period] at this
    · have hx : id = x := by
        rcases List.mem_cons.mp hm with h | h
        · exact h
        · exact absurd h hx
      subst hx
      apply loop_validAt_mono (l := xs)
      rcases processOne_validAt acc id (acc.s.now + acc.s.period) with h3 | ⟨_, _, h4⟩
      · rcases processOne_cases acc id with ⟨_, e⟩ | ⟨hst, _⟩
        · rw [e]; simp
        · exact absurd h hst
      · rw [h4]; simp

theorem mem_deliveries {id : Nat} {log : List Ev} :
    deliveries id log ≠ [] ↔ ∃ cl t, Ev.delivered id cl t ∈ log := by
  unfold deliveries
  rw [Ne, List.filter_eq_nil_iff]
  constructor
  · intro h
    simp only [not_forall] at h
    obtain ⟨e, he, hd⟩ := h
    cases e <;> simp [isDelivery] at hd
    subst hd
    exact ⟨_, _, he⟩
  · rintro ⟨cl, t, h⟩ hn
    exact hn _ h (by simp [isDelivery])

/-! ## The challenge period -/

/-- `k` bounds the challenge period from below along the history. -/
def PeriodOp (k : Nat) (op : Op) : Prop := ∀ n, op = .setPeriod n → k ≤ n

/-- Schedules of ids for which no invalid verdict was ever reached. -/
structure JI (k : Nat) (s : St) : Prop where
  period : k ≤ s.period
  fresh : ∀ id, Ev.invalid id ∉ s.log → deliveries id s.log = [] → s.claims id = none →
    (∀ b, id ∉ s.validAt b) ∧ ∀ cl a p, Ev.submitted id cl a p ∉ s.log
  sched : ∀ id, Ev.invalid id ∉ s.log → ∀ cl a p, Ev.submitted id cl a p ∈ s.log →
    ∀ b, id ∈ s.validAt b → a + k ≤ b
  done : ∀ id cl t, Ev.delivered id cl t ∈ s.log → Ev.invalid id ∉ s.log →
    ∀ cl' a p, Ev.submitted id cl' a p ∈ s.log → a + k ≤ t
  src : ∀ id cl, s.claims id = some cl → ∃ a p, Ev.submitted id cl a p ∈ s.log
  dsrc : ∀ id cl t, Ev.delivered id cl t ∈ s.log → ∃ a p, Ev.submitted id cl a p ∈ s.log

theorem JI.genesis {k : Nat} {s : St} (h : Genesis s) (hk : k ≤ s.period) : JI k s := by
  refine ⟨hk, ?_, ?_, ?_, ?_, ?_⟩
  · intro id _ _ _; simp [h.validAt, h.log]
  · intro id _ cl a p hm; rw [h.log] at hm; cases hm
  · intro id cl t hm; rw [h.log] at hm; cases hm
  · intro id cl hc; rw [h.claims] at hc; cases hc
  · intro id cl t hm; rw [h.log] at hm; cases hm

/-- Only the given events matter for `JI`. -/
theorem JI.frame {k : Nat} {s s' : St} (h : JI k s) (ext : List Ev) (hk : k ≤ s'.period)
    (hl : s'.log = ext ++ s.log) (he : ∀ i cl a p, Ev.submitted i cl a p ∉ ext)
    (hd : ∀ i cl t, Ev.delivered i cl t ∉ ext) (hv : s'.validAt = s.validAt)
    (hc : ∀ i, s'.claims i = s.claims i ∨ (s'.claims i = none ∧ Ev.invalid i ∈ s'.log)) : JI k s' := by
  have ninv : ∀ i, Ev.invalid i ∉ s'.log → Ev.invalid i ∉ s.log := by
    intro i hi hm; apply hi; rw [hl]; exact List.mem_append_right _ hm
  have sub : ∀ {i cl a p}, Ev.submitted i cl a p ∈ s'.log → Ev.submitted i cl a p ∈ s.log := by
    intro i cl a p hm; rw [hl] at hm
    rcases List.mem_append.mp hm with hm | hm
    · exact absurd hm (he _ _ _ _)
    · exact hm
  have del : ∀ {i cl t}, Ev.delivered i cl t ∈ s'.log → Ev.delivered i cl t ∈ s.log := by
    intro i cl t hm; rw [hl] at hm
    rcases List.mem_append.mp hm with hm | hm
    · exact absurd hm (hd _ _ _)
    · exact hm
  have up : ∀ {e}, e ∈ s.log → e ∈ s'.log := by
    intro e hm; rw [hl]; exact List.mem_append_right _ hm
  refine ⟨hk, ?_, ?_, ?_, ?_, ?_⟩
  · intro id hi hdel hcl
    have hdel' : deliveries id s.log = [] := by
      by_contra hne
      obtain ⟨cl, t, hm⟩ := mem_deliveries.mp hne
      exact mem_deliveries.mpr ⟨cl, t, up hm⟩ hdel
    have hcl' : s.claims id = none := by
      rcases hc id with h1 | ⟨_, h2⟩
      · rw [← h1]; exact hcl
      · exact absurd h2 hi
    obtain ⟨h1, h2⟩ := h.fresh id (ninv id hi) hdel' hcl'
    exact ⟨by rw [hv]; exact h1, fun cl a p hm => h2 cl a p (sub hm)⟩
  · intro id hi cl a p hm b hb
    rw [hv] at hb
    exact h.sched id (ninv id hi) cl a p (sub hm) b hb
  · intro id cl t hm hi cl' a p hs
    exact h.done id cl t (del hm) (ninv id hi) cl' a p (sub hs)
  · intro id cl hcl
    rcases hc id with h1 | ⟨h2, _⟩
    · rw [h1] at hcl
      obtain ⟨a, p, hm⟩ := h.src id cl hcl
      exact ⟨a, p, up hm⟩
    · rw [h2] at hcl; cases hcl
  · intro id cl t hm
    obtain ⟨a, p, hs⟩ := h.dsrc id cl t (del hm)
    exact ⟨a, p, up hs⟩

theorem submit_JI {c : Cfg} {k : Nat} {s s' : St} {id cl : Nat} (h : JI k s)
    (hnd : deliveries id s.log = []) (hs : doSubmitEvent c s id cl = .ok s') : JI k s' := by
  obtain ⟨hc, _, rfl⟩ := doSubmitEvent_ok hs
  have hp := h.period
  refine ⟨h.period, ?_, ?_, ?_, ?_, ?_⟩
  · intro i hi hd hcl
    dsimp only at hi hd hcl ⊢
    have hne : i ≠ id := by rintro rfl; rw [upd_same] at hcl; cases hcl
    rw [upd_ne _ _ hne] at hcl
    have hi' : Ev.invalid i ∉ s.log := fun hm => hi (List.mem_cons_of_mem _ hm)
    rw [deliveries_cons_ne rfl] at hd
    obtain ⟨h1, h2⟩ := h.fresh i hi' hd hcl
    refine ⟨?_, ?_⟩
    · intro b hb
      by_cases hbe : b = s.now + s.period
      · subst hbe
        rw [upd_same] at hb
        rcases List.mem_append.mp hb with hb | hb
        · exact h1 _ hb
        · simp at hb; exact hne hb
      · rw [upd_ne _ _ hbe] at hb; exact h1 _ hb
    · intro cl' a p hm
      rcases List.mem_cons.mp hm with hm | hm
      · cases hm; exact hne rfl
      · exact h2 _ _ _ hm
  · intro i hi cl' a p hm b hb
    dsimp only at hi hm hb
    have hi' : Ev.invalid i ∉ s.log := fun hm => hi (List.mem_cons_of_mem _ hm)
    by_cases hne : i = id
    · subst hne
      obtain ⟨h1, h2⟩ := h.fresh i hi' hnd hc
      rcases List.mem_cons.mp hm with hm | hm
      · cases hm
        by_cases hbe : b = s.now + s.period
        · omega
        · rw [upd_ne _ _ hbe] at hb; exact absurd hb (h1 _)
      · exact absurd hm (h2 _ _ _)
    · rcases List.mem_cons.mp hm with hm | hm
      · cases hm; exact absurd rfl hne
      · refine h.sched i hi' cl' a p hm b ?_
        by_cases hbe : b = s.now + s.period
        · subst hbe
          rw [upd_same] at hb
          rcases List.mem_append.mp hb with hb | hb
          · exact hb
          · simp at hb; exact absurd hb hne
        · rwa [upd_ne _ _ hbe] at hb
  · intro i cl1 t hm hi cl' a p hsub
    dsimp only at hm hi hsub
    have hi' : Ev.invalid i ∉ s.log := fun hm => hi (List.mem_cons_of_mem _ hm)
    rcases List.mem_cons.mp hm with hm | hm
    · cases hm
    have hne : i ≠ id := by
      rintro rfl
      exact mem_deliveries.mpr ⟨_, _, hm⟩ hnd
    rcases List.mem_cons.mp hsub with hsub | hsub
    · cases hsub; exact absurd rfl hne
    · exact h.done i cl1 t hm hi' cl' a p hsub
  · intro i cl' hcl
    dsimp only at hcl ⊢
    by_cases hne : i = id
    · subst hne; rw [upd_same] at hcl; cases hcl
      exact ⟨_, _, List.mem_cons_self⟩
    · rw [upd_ne _ _ hne] at hcl
      obtain ⟨a, p, hm⟩ := h.src i cl' hcl
      exact ⟨a, p, List.mem_cons_of_mem _ hm⟩
  · intro i cl' t hm
    rcases List.mem_cons.mp hm with hm | hm
    · cases hm
    · obtain ⟨a, p, hs⟩ := h.dsrc i cl' t hm
      exact ⟨a, p, List.mem_cons_of_mem _ hs⟩

theorem onInitialize_JI {c : Cfg} {k : Nat} {s : St} (h : JI k s) : JI k (onInitialize c s) := by
  obtain ⟨pp, mm, e⟩ := onInitialize_eq c s
  rw [e]
  obtain ⟨ext, hl, hext⟩ := loop_log (s.validAt (s.now + 1)) (startLoop s)
  have hk : Kept (startLoop s).s (endLoop s).s := loop_kept (s.validAt (s.now + 1)) (startLoop s)
  change (endLoop s).s.log = ext ++ s.log at hl
  have hnow : (startLoop s).s.now = s.now + 1 := rfl
  have hper : (startLoop s).s.period = s.period := rfl
  have evd : ∀ {e : Ev}, e ∈ (endLoop s).s.log → (∃ i cl, e = .delivered i cl (s.now + 1) ∧
      i ∈ s.validAt (s.now + 1) ∧ s.claims i = some cl) ∨ e ∈ s.log := by
    intro e he
    rw [hl] at he
    rcases List.mem_append.mp he with he | he
    · obtain ⟨i, cl, h1, h2, _, h3⟩ := hext e he
      exact Or.inl ⟨i, cl, h1, h2, h3⟩
    · exact Or.inr he
  have up : ∀ {e}, e ∈ s.log → e ∈ (endLoop s).s.log := by
    intro e hm; rw [hl]; exact List.mem_append_right _ hm
  have sub : ∀ {i cl a p}, Ev.submitted i cl a p ∈ (endLoop s).s.log → Ev.submitted i cl a p ∈ s.log := by
    intro i cl a p hm
    rcases evd hm with ⟨_, _, h1, _⟩ | h1
    · cases h1
    · exact h1
  have vsub : ∀ {i b}, i ∈ (endLoop s).s.validAt b →
      (i ∈ s.validAt b) ∨ (i ∈ s.validAt (s.now + 1) ∧ b = s.now + 1 + s.period) := by
    intro i b hb
    rcases loop_validAt_sub hb with h1 | h1
    · left
      have h1 : i ∈ upd s.validAt (s.now + 1) [] b := h1
      by_cases hbe : b = s.now + 1
      · subst hbe; rw [upd_same] at h1; cases h1
      · rwa [upd_ne _ _ hbe] at h1
    · exact Or.inr h1
  have hperk := h.period
  refine ⟨by have := hk.period; dsimp only; rw [this]; exact h.period, ?_, ?_, ?_, ?_, ?_⟩
  · intro i hi hd hcl
    dsimp only at hi hd hcl ⊢
    have hi' : Ev.invalid i ∉ s.log := fun hm => hi (up hm)
    have hd' : deliveries i s.log = [] := by
      by_contra hne
      obtain ⟨cl, t, hm⟩ := mem_deliveries.mp hne
      exact mem_deliveries.mpr ⟨cl, t, up hm⟩ hd
    have hcl' : s.claims i = none := by
      cases hcs : s.claims i with
      | none => rfl
      | some cl =>
        rcases loop_keep (l := s.validAt (s.now + 1)) (acc := startLoop s) hcs with ⟨g1, _⟩ | ⟨_, _, g3⟩
        · change (endLoop s).s.claims i = some cl at g1; rw [hcl] at g1; cases g1
        · exact absurd hd (mem_deliveries.mpr ⟨_, _, g3⟩)
    obtain ⟨h1, h2⟩ := h.fresh i hi' hd' hcl'
    refine ⟨?_, fun cl a p hm => h2 cl a p (sub hm)⟩
    intro b hb
    rcases vsub hb with hb | ⟨hb, _⟩
    · exact h1 _ hb
    · exact h1 _ hb
  · intro i hi cl a p hm b hb
    have hi' : Ev.invalid i ∉ s.log := fun hm => hi (up hm)
    rcases vsub hb with hb | ⟨hb', rfl⟩
    · exact h.sched i hi' cl a p (sub hm) b hb
    · have := h.sched i hi' cl a p (sub hm) _ hb'
      omega
  · intro i cl t hm hi cl' a p hsub
    have hi' : Ev.invalid i ∉ s.log := fun hm => hi (up hm)
    rcases evd hm with ⟨j, cl2, h1, h2, h3⟩ | h1
    · cases h1
      exact h.sched i hi' cl' a p (sub hsub) _ h2
    · exact h.done i cl t h1 hi' cl' a p (sub hsub)
  · intro i cl hcl
    have hcl' : s.claims i = some cl := loop_claims (acc := startLoop s) hcl
    obtain ⟨a, p, hm⟩ := h.src i cl hcl'
    exact ⟨a, p, up hm⟩
  · intro i cl t hm
    rcases evd hm with ⟨j, cl2, h1, h2, h3⟩ | h1
    · cases h1
      obtain ⟨a, p, hm⟩ := h.src i cl h3
      exact ⟨a, p, up hm⟩
    · obtain ⟨a, p, hm⟩ := h.dsrc i cl t h1
      exact ⟨a, p, up hm⟩

theorem JI.step {c : Cfg} {k : Nat} {s s' : St} {op : Op} (h : JI k s)
    (hri : StRI s) (hp : PeriodOp k op) (hs : step c s op = .ok s') : JI k s' := by
  cases op with
  | submitEvent who id cl =>
    obtain ⟨_, hg, hd⟩ := submitEvent_ok hs
    refine submit_JI h ?_ hd
    by_contra hne
    obtain ⟨h1, h2, _, _⟩ := hri.del id hne
    rcases hg with hg | ⟨hg1, hg2⟩
    · exact h1 hg
    · rcases h2 with h2 | h2
      · omega
      · exact hg2 h2
  | submitMissing who id cl =>
    obtain ⟨_, hg, hd⟩ := submitMissing_ok hs
    refine submit_JI h ?_ hd
    by_contra hne
    exact (hri.del id hne).2.2.1 hg
  | challenge who id =>
    obtain ⟨_, _, _, _, rfl⟩ := submitChallenge_ok hs
    exact h.frame [.challenged id who] h.period rfl (by simp) (by simp) rfl (fun _ => Or.inl rfl)
  | notarize idx id yes =>
    obtain ⟨_, h2, _, _, h5, _, _, h8, ⟨ext, h9, h10, h11⟩, _⟩ := notarize_frame hs
    refine h.frame ext (by rw [h2]; exact h.period) h9 h11 ?_ h5 ?_
    · intro i cl t hm
      have := h10 i _ hm
      simp [isDelivery] at this
    · intro i
      rcases h8 with h8 | ⟨h8, h8'⟩
      · left; rw [h8]
      · by_cases hi : i = id
        · subst hi; right; rw [h8, upd_same]; exact ⟨rfl, h8'⟩
        · left; rw [h8, upd_ne _ _ hi]
  | setRelayer who =>
    obtain ⟨_, rfl⟩ := setRelayer_ok hs
    exact h.frame [] h.period rfl (by simp) (by simp) rfl (fun _ => Or.inl rfl)
  | depositBond who =>
    obtain ⟨_, _, rfl⟩ := depositBond_ok hs
    exact h.frame [] h.period rfl (by simp) (by simp) rfl (fun _ => Or.inl rfl)
  | withdrawBond who =>
    obtain ⟨_, _, _, rfl⟩ := withdrawBond_ok hs
    exact h.frame [] h.period rfl (by simp) (by simp) rfl (fun _ => Or.inl rfl)
  | setPeriod n =>
    simp only [Ethy.step, Except.ok.injEq] at hs; subst hs
    exact h.frame [] (hp n rfl) rfl (by simp) (by simp) rfl (fun _ => Or.inl rfl)
  | removeMissing lo hi =>
    simp only [Ethy.step, Except.ok.injEq] at hs; subst hs
    exact h.frame [] h.period rfl (by simp) (by simp) rfl (fun _ => Or.inl rfl)
  | setNotaries keys n =>
    simp only [Ethy.step, Except.ok.injEq] at hs; subst hs
    exact h.frame [] h.period rfl (by simp) (by simp) rfl (fun _ => Or.inl rfl)
  | fund who amt =>
    simp only [Ethy.step, Except.ok.injEq] at hs; subst hs
    exact h.frame [] h.period rfl (by simp) (by simp) rfl (fun _ => Or.inl rfl)
  | nextBlock =>
    simp only [Ethy.step, Except.ok.injEq] at hs; subst hs
    exact onInitialize_JI h

theorem ReachP.ji {c : Cfg} (hmax : 0 < c.maxIds) {k : Nat} {s : St}
    (h : ReachP c (PeriodOp k) (fun s => k ≤ s.period) s) : JI k s := by
  induction h with
  | init hg hk => exact .genesis hg hk
  | step hr hp hs ih => exact ih.step (hr.ri hmax) hp hs

/-! ## Liveness -/

/-- Every pending claim is scheduled for a coming block, as long as the challenge period is positive. -/
structure SI (s : St) : Prop where
  period : 0 < s.period
  sched : ∀ id, (s.claims id).isSome → ∃ b, s.now < b ∧ id ∈ s.validAt b

theorem SI.genesis {s : St} (h : Genesis s) (hp : 0 < s.period) : SI s :=
  ⟨hp, fun id hc => by rw [h.claims] at hc; simp at hc⟩

theorem onInitialize_SI {c : Cfg} {s : St} (h : SI s) : SI (onInitialize c s) := by
  obtain ⟨pp, mm, e⟩ := onInitialize_eq c s
  rw [e]
  have hk : Kept (startLoop s).s (endLoop s).s := loop_kept (s.validAt (s.now + 1)) (startLoop s)
  have hper : (endLoop s).s.period = s.period := hk.period
  have hnow : (endLoop s).s.now = s.now + 1 := hk.now
  have hp := h.period
  refine ⟨by dsimp only; rw [hper]; exact h.period, ?_⟩
  intro id hc
  dsimp only at hc ⊢
  rw [hnow]
  obtain ⟨cl, hcl⟩ := Option.isSome_iff_exists.mp hc
  have hcl0 : s.claims id = some cl := loop_claims (acc := startLoop s) hcl
  obtain ⟨b, hb1, hb2⟩ := h.sched id (by rw [hcl0]; rfl)
  by_cases hbe : b = s.now + 1
  · subst hbe
    by_cases hst : s.status id = some .challenged
    · exact ⟨s.now + 1 + s.period, by omega, loop_reschedules (acc := startLoop s) hst hb2⟩
    · rcases loop_keep (l := s.validAt (s.now + 1)) (acc := startLoop s) hcl0 with ⟨_, _, g⟩ | ⟨_, _, g⟩
      · exact absurd hb2 (g hst)
      · exfalso
        have hg : ∀ {l : List Nat} {acc : Loop}, id ∈ l → acc.s.status id ≠ some .challenged →
            acc.s.claims id = some cl → (l.foldl processOne acc).s.claims id = some cl → False := by
          intro l
          induction l with
          | nil => intro acc hm; cases hm
          | cons x xs ih =>
            intro acc hm hst' hc' hr
            rcases processOne_keep (x := x) hc' with ⟨g1, g2, g3⟩ | ⟨_, g2, _⟩
            · have hx := g3 hst'
              have hm' : id ∈ xs := by
                rcases List.mem_cons.mp hm with h | h
                · exact absurd h hx
                · exact h
              exact ih hm' (by rw [g2]; exact hst') g1 hr
            · subst g2
              have h1 := loop_claims (l := xs) hr
              rcases processOne_cases acc id with ⟨hst2, _⟩ | ⟨_, m, e⟩
              · exact hst' hst2
              · rw [e] at h1
                rcases deliver_cases acc.s id with ⟨e0, _⟩ | ⟨cl', _, e⟩
                · rw [e0] at hc'; cases hc'
                · rw [e] at h1; simp at h1
        exact hg (acc := startLoop s) hb2 hst hcl0 hcl
  · refine ⟨b, by omega, loop_validAt_mono (acc := startLoop s) ?_⟩
    change id ∈ upd s.validAt (s.now + 1) [] b
    rw [upd_ne _ _ hbe]; exact hb2

theorem submit_SI {c : Cfg} {s s' : St} {id cl : Nat} (h : SI s)
    (hs : doSubmitEvent c s id cl = .ok s') : SI s' := by
  obtain ⟨_, _, rfl⟩ := doSubmitEvent_ok hs
  have hp := h.period
  refine ⟨h.period, ?_⟩
  intro i hc
  dsimp only at hc ⊢
  by_cases hi : i = id
  · subst hi; exact ⟨s.now + s.period, by omega, by rw [upd_same]; simp⟩
  · rw [upd_ne _ _ hi] at hc
    obtain ⟨b, h1, h2⟩ := h.sched i hc
    refine ⟨b, h1, ?_⟩
    by_cases hb : b = s.now + s.period
    · subst hb; rw [upd_same]; exact List.mem_append_left _ h2
    · rw [upd_ne _ _ hb]; exact h2

theorem SI.step {c : Cfg} {s s' : St} {op : Op} (h : SI s) (hp : PeriodOp 1 op)
    (hs : step c s op = .ok s') : SI s' := by
  cases op with
  | submitEvent who id cl => exact submit_SI h (submitEvent_ok hs).2.2
  | submitMissing who id cl => exact submit_SI h (submitMissing_ok hs).2.2
  | challenge who id =>
    obtain ⟨_, _, _, _, rfl⟩ := submitChallenge_ok hs
    exact ⟨h.period, h.sched⟩
  | notarize idx id yes =>
    obtain ⟨h1, h2, _, _, h5, _, _, h8, _, _⟩ := notarize_frame hs
    refine ⟨by rw [h2]; exact h.period, ?_⟩
    intro i hc
    rw [h1, h5]
    refine h.sched i ?_
    rcases h8 with h8 | ⟨h8, _⟩
    · rwa [h8] at hc
    · rw [h8] at hc
      by_cases hi : i = id
      · subst hi; rw [upd_same] at hc; cases hc
      · rwa [upd_ne _ _ hi] at hc
  | setRelayer who =>
    obtain ⟨_, rfl⟩ := setRelayer_ok hs; exact ⟨h.period, h.sched⟩
  | depositBond who =>
    obtain ⟨_, _, rfl⟩ := depositBond_ok hs; exact ⟨h.period, h.sched⟩
  | withdrawBond who =>
    obtain ⟨_, _, _, rfl⟩ := withdrawBond_ok hs; exact ⟨h.period, h.sched⟩
  | setPeriod n =>
    simp only [Ethy.step, Except.ok.injEq] at hs; subst hs
    exact ⟨hp n rfl, h.sched⟩
  | removeMissing lo hi =>
    simp only [Ethy.step, Except.ok.injEq] at hs; subst hs; exact ⟨h.period, h.sched⟩
  | setNotaries keys n =>
    simp only [Ethy.step, Except.ok.injEq] at hs; subst hs; exact ⟨h.period, h.sched⟩
  | fund who amt =>
    simp only [Ethy.step, Except.ok.injEq] at hs; subst hs; exact ⟨h.period, h.sched⟩
  | nextBlock =>
    simp only [Ethy.step, Except.ok.injEq] at hs; subst hs
    exact onInitialize_SI h

theorem ReachP.si {c : Cfg} {s : St} (h : ReachP c (PeriodOp 1) (fun s => 1 ≤ s.period) s) : SI s := by
  induction h with
  | init hg hk => exact .genesis hg hk
  | step _ hp hs ih => exact ih.step hp hs

/-- What is known about a claim on its way: pending, not challenged, due by block `b`. -/
structure Due (s : St) (id cl b : Nat) : Prop where
  claim : s.claims id = some cl
  status : s.status id ≠ some .challenged
  sched : ∃ b', s.now < b' ∧ b' ≤ b ∧ id ∈ s.validAt b'

/-- A due claim cannot be challenged, or the operation does not challenge it. -/
def NoChallenge (s : St) (id : Nat) (op : Op) : Prop :=
  s.status id = some .provenValid ∨ ∀ who, op ≠ .challenge who id

theorem submit_due {c : Cfg} {s s' : St} {id cl b id' cl' : Nat} (h : Due s id cl b)
    (hs : doSubmitEvent c s id' cl' = .ok s') : Due s' id cl b ∧ s'.status id = s.status id := by
  obtain ⟨hn, _, rfl⟩ := doSubmitEvent_ok hs
  have hne : id ≠ id' := by rintro rfl; rw [h.claim] at hn; cases hn
  obtain ⟨b', h1, h2, h3⟩ := h.sched
  refine ⟨⟨?_, ?_, b', h1, h2, ?_⟩, ?_⟩
  · dsimp only; rw [upd_ne _ _ hne]; exact h.claim
  · dsimp only; rw [upd_ne _ _ hne]; exact h.status
  · dsimp only
    by_cases hb : b' = s.now + s.period
    · subst hb; rw [upd_same]; exact List.mem_append_left _ h3
    · rw [upd_ne _ _ hb]; exact h3
  · dsimp only; rw [upd_ne _ _ hne]

theorem Due.step {c : Cfg} {s s' : St} {op : Op} {id cl b : Nat} (h : Due s id cl b)
    (hn : NoChallenge s id op) (hs : step c s op = .ok s') :
    (Due s' id cl b ∧ s'.status id = s.status id) ∨ ∃ t, t ≤ b ∧ Ev.delivered id cl t ∈ s'.log := by
  cases op with
  | submitEvent who id' cl' => exact Or.inl (submit_due h (submitEvent_ok hs).2.2)
  | submitMissing who id' cl' => exact Or.inl (submit_due h (submitMissing_ok hs).2.2)
  | challenge who id' =>
    obtain ⟨_, hp, _, _, rfl⟩ := submitChallenge_ok hs
    have hne : id ≠ id' := by
      rintro rfl
      rcases hn with hn | hn
      · rw [hn] at hp; cases hp
      · exact hn who rfl
    left
    exact ⟨⟨h.claim, by dsimp only; rw [upd_ne _ _ hne]; exact h.status, h.sched⟩,
      by dsimp only; rw [upd_ne _ _ hne]⟩
  | notarize idx id' yes =>
    obtain ⟨_, _, _, hst, _⟩ := notarize_ok hs
    have hne : id ≠ id' := by rintro rfl; exact h.status hst
    obtain ⟨h1, _, _, _, h5, _, _, h8, _, h10⟩ := notarize_frame hs
    obtain ⟨hs1, _, _⟩ := h10 id hne
    left
    refine ⟨⟨?_, by rw [hs1]; exact h.status, by rw [h1, h5]; exact h.sched⟩, hs1⟩
    rcases h8 with h8 | ⟨h8, _⟩
    · rw [h8]; exact h.claim
    · rw [h8, upd_ne _ _ hne]; exact h.claim
  | setRelayer who =>
    obtain ⟨_, rfl⟩ := setRelayer_ok hs; exact Or.inl ⟨⟨h.claim, h.status, h.sched⟩, rfl⟩
  | depositBond who =>
    obtain ⟨_, _, rfl⟩ := depositBond_ok hs; exact Or.inl ⟨⟨h.claim, h.status, h.sched⟩, rfl⟩
  | withdrawBond who =>
    obtain ⟨_, _, _, rfl⟩ := withdrawBond_ok hs; exact Or.inl ⟨⟨h.claim, h.status, h.sched⟩, rfl⟩
  | setPeriod n =>
    simp only [Ethy.step, Except.ok.injEq] at hs; subst hs
    exact Or.inl ⟨⟨h.claim, h.status, h.sched⟩, rfl⟩
  | removeMissing lo hi =>
    simp only [Ethy.step, Except.ok.injEq] at hs; subst hs
    exact Or.inl ⟨⟨h.claim, h.status, h.sched⟩, rfl⟩
  | setNotaries keys n =>
    simp only [Ethy.step, Except.ok.injEq] at hs; subst hs
    exact Or.inl ⟨⟨h.claim, h.status, h.sched⟩, rfl⟩
  | fund who amt =>
    simp only [Ethy.step, Except.ok.injEq] at hs; subst hs
    exact Or.inl ⟨⟨h.claim, h.status, h.sched⟩, rfl⟩
  | nextBlock =>
    simp only [Ethy.step, Except.ok.injEq] at hs; subst hs
    obtain ⟨b', h1, h2, h3⟩ := h.sched
    obtain ⟨pp, mm, e⟩ := onInitialize_eq c s
    rw [e]
    have hk : Kept (startLoop s).s (endLoop s).s := loop_kept (s.validAt (s.now + 1)) (startLoop s)
    rcases loop_keep (l := s.validAt (s.now + 1)) (acc := startLoop s) h.claim with ⟨g1, g2, g3⟩ | ⟨_, _, g3⟩
    · left
      have hb : b' ≠ s.now + 1 := by rintro rfl; exact g3 h.status h3
      refine ⟨⟨g1, ?_, b', ?_, h2, ?_⟩, g2⟩
      · change (endLoop s).s.status id ≠ _
        have g2 : (endLoop s).s.status id = s.status id := g2
        rw [g2]; exact h.status
      · have : (endLoop s).s.now = s.now + 1 := hk.now
        dsimp only; rw [this]; omega
      · apply loop_validAt_mono (acc := startLoop s)
        change id ∈ upd s.validAt (s.now + 1) [] b'
        rw [upd_ne _ _ hb]; exact h3
    · exact Or.inr ⟨s.now + 1, by omega, g3⟩

/-- A log entry stays. -/
theorem step_log_mem {c : Cfg} {s s' : St} {op : Op} (hs : step c s op = .ok s') {e : Ev} (he : e ∈ s.log) :
    e ∈ s'.log := by
  cases op with
  | submitEvent who id cl =>
    obtain ⟨_, _, rfl⟩ := doSubmitEvent_ok (submitEvent_ok hs).2.2; exact List.mem_cons_of_mem _ he
  | submitMissing who id cl =>
    obtain ⟨_, _, rfl⟩ := doSubmitEvent_ok (submitMissing_ok hs).2.2; exact List.mem_cons_of_mem _ he
  | challenge who id =>
    obtain ⟨_, _, _, _, rfl⟩ := submitChallenge_ok hs; exact List.mem_cons_of_mem _ he
  | notarize idx id yes =>
    obtain ⟨_, _, _, _, _, _, _, _, ⟨ext, h9, _⟩, _⟩ := notarize_frame hs
    rw [h9]; exact List.mem_append_right _ he
  | setRelayer who => obtain ⟨_, rfl⟩ := setRelayer_ok hs; exact he
  | depositBond who => obtain ⟨_, _, rfl⟩ := depositBond_ok hs; exact he
  | withdrawBond who => obtain ⟨_, _, _, rfl⟩ := withdrawBond_ok hs; exact he
  | setPeriod n => simp only [Ethy.step, Except.ok.injEq] at hs; subst hs; exact he
  | removeMissing lo hi => simp only [Ethy.step, Except.ok.injEq] at hs; subst hs; exact he
  | setNotaries keys n => simp only [Ethy.step, Except.ok.injEq] at hs; subst hs; exact he
  | fund who amt => simp only [Ethy.step, Except.ok.injEq] at hs; subst hs; exact he
  | nextBlock =>
    simp only [Ethy.step, Except.ok.injEq] at hs; subst hs
    obtain ⟨pp, mm, e'⟩ := onInitialize_eq c s
    rw [e']
    exact loop_log_mem (acc := startLoop s) he

theorem exec_log_mem {c : Cfg} {e : Ev} : ∀ (ops : List Op) {s : St}, e ∈ s.log → e ∈ (exec c s ops).log
  | [], _, h => h
  | op :: ops, s, h => by
    unfold exec
    apply exec_log_mem ops
    cases hs : step c s op with
    | ok s1 => exact step_log_mem hs h
    | error _ => exact h

/-- A due claim is delivered by block `b`, whatever happens, if it is not challenged. -/
theorem Due.exec {c : Cfg} {id cl b : Nat} : ∀ (ops : List Op) {s : St}, Due s id cl b →
    (s.status id = some .provenValid ∨ ∀ op ∈ ops, ∀ who, op ≠ .challenge who id) →
    b ≤ (exec c s ops).now → ∃ t, t ≤ b ∧ Ev.delivered id cl t ∈ (Ethy.exec c s ops).log
  | [], s, h, _, hb => by
    obtain ⟨b', h1, h2, _⟩ := h.sched
    change b ≤ s.now at hb
    omega
  | op :: ops, s, h, hn, hb => by
    unfold Ethy.exec at hb ⊢
    have hn1 : NoChallenge s id op := hn.imp _root_.id (fun h => h op List.mem_cons_self)
    cases hs : Ethy.step c s op with
    | error e =>
      simp only [hs] at hb ⊢
      exact Due.exec ops h (hn.imp _root_.id (fun h op ho => h op (List.mem_cons_of_mem _ ho))) hb
    | ok s1 =>
      simp only [hs] at hb ⊢
      rcases h.step hn1 hs with ⟨hd, he⟩ | ⟨t, ht, hd⟩
      · exact Due.exec ops hd (by rw [he]; exact hn.imp _root_.id (fun h op ho => h op (List.mem_cons_of_mem _ ho))) hb
      · exact ⟨t, ht, exec_log_mem ops hd⟩

end Verif.Ethy
