import Verif.Era.Inv

/-!
# C227–C229: the notaries of the Ethereum bridge and the validators of an era
-/

namespace Verif.Era

/-! ## Histories in which every session has its full length -/

/-- Every session has exactly `epoch` blocks; root forces only with `fs`; elections may fail if `fail`; the scheduler may refuse if `lost`. -/
def Full (c : Cfg) (fs : List Forcing) (fail lost : Bool) (s : St) : Op → Prop
  | .force f => f ∈ fs
  | .block none => s.block + 1 < s.began + c.epoch
  | .block (some r) => (fail = true ∨ r.win.isSome = true) ∧ (lost = true ∨ r.sch = true) ∧ s.block + 1 = s.began + c.epoch

instance (c : Cfg) (fs : List Forcing) (fail lost : Bool) (s : St) : (op : Op) → Decidable (Full c fs fail lost s op)
  | .force _ => by unfold Full; infer_instance
  | .block none => by unfold Full; infer_instance
  | .block (some _) => by unfold Full; infer_instance

/-- A step, or `n` blocks in which nothing is due. -/
inductive Act where
  | op (o : Op)
  | wait (n : Nat)

def act (c : Cfg) (s : St) : Act → St
  | .op o => step c s o
  | .wait n => { s with block := s.block + n }

/-- Nothing is due in the next `n` blocks, and the session does not end in them. -/
def quiet (c : Cfg) (s : St) (n : Nat) : Bool :=
  s.sched.all (fun p => decide (s.block + n < p.1)) && decide (s.block + n < s.began + c.epoch) &&
    (match s.nextChange with
      | some b => decide (s.block + n < b ∨ b ≤ s.block)
      | none => true)

def legal (c : Cfg) (fs : List Forcing) (fail lost : Bool) (s : St) : Act → Bool
  | .op o => decide (Full c fs fail lost s o)
  | .wait n => quiet c s n

def play (c : Cfg) (fs : List Forcing) (fail lost : Bool) : St → List Act → Option St
  | s, [] => some s
  | s, a :: l => if legal c fs fail lost s a then play c fs fail lost (act c s a) l else none

theorem wait_reach {c : Cfg} {fs : List Forcing} {fail lost : Bool} {s : St} (h : Reach c (Full c fs fail lost) s) :
    ∀ n, quiet c s n = true → Reach c (Full c fs fail lost) { s with block := s.block + n } := by
  intro n
  induction n with
  | zero => intro _; exact h
  | succ n ih =>
    intro q
    unfold quiet at q
    simp only [Bool.and_eq_true, List.all_eq_true, decide_eq_true_eq] at q
    obtain ⟨⟨q1, q2⟩, q3⟩ := q
    have q' : quiet c s n = true := by
      unfold quiet
      simp only [Bool.and_eq_true, List.all_eq_true, decide_eq_true_eq]
      refine ⟨⟨fun p hp => by have := q1 p hp; omega, by omega⟩, ?_⟩
      cases hn : s.nextChange with
      | none => rfl
      | some b =>
        rw [hn] at q3
        simp only [decide_eq_true_eq] at q3 ⊢
        omega
    have e : step c { s with block := s.block + n } (.block none) = { s with block := s.block + (n + 1) } := by
      have f1 : s.sched.filter (fun p => decide (p.1 = s.block + n + 1)) = [] := by
        rw [List.filter_eq_nil_iff]
        intro p hp
        have := q1 p hp
        simp only [decide_eq_true_eq]
        omega
      have f2 : s.sched.filter (fun p => decide (p.1 ≠ s.block + n + 1)) = s.sched := by
        rw [List.filter_eq_self]
        intro p hp
        have := q1 p hp
        simp only [decide_eq_true_eq]
        omega
      have r : runSched { s with block := s.block + n + 1 } = { s with block := s.block + n + 1 } := by
        unfold runSched
        dsimp only
        rw [f1, f2]
        rfl
      show dueChange (runSched { s with block := s.block + n + 1 }) = _
      rw [r]
      unfold dueChange
      rw [if_neg]
      · rfl
      · intro hb
        change s.nextChange = some (s.block + n + 1) at hb
        rw [hb] at q3
        simp only [decide_eq_true_eq] at q3
        omega
    rw [← e]
    exact .step (op := .block none) (ih q') (by show s.block + n + 1 < s.began + c.epoch; omega)

theorem play_reach {c : Cfg} {fs : List Forcing} {fail lost : Bool} {t : St} (l : List Act) :
    ∀ s, Reach c (Full c fs fail lost) s → play c fs fail lost s l = some t → Reach c (Full c fs fail lost) t := by
  induction l with
  | nil => intro s h q; cases q; exact h
  | cons a l ih =>
    intro s h q
    unfold play at q
    split at q
    · rename_i hl
      refine ih _ ?_ q
      cases a with
      | op o => exact .step h (of_decide_eq_true hl)
      | wait n => exact wait_reach h n hl
    · cases q

/-- The constants of the runtime: an era has six sessions of 3600 blocks, the delay is 75 blocks. -/
def root : Cfg := ⟨6, 3600, 75⟩

/-- The first block, with the keys of the first validators. -/
def first (keys : List Key) : St where
  block := 0
  index := 0
  vals := keys
  queued := keys
  active := 0
  planned := 0
  start := fun e => if e = 0 then some 0 else none
  force := .notForcing
  notary := keys
  nextKeys := []
  setId := 0
  nextChange := none
  changed := false
  paused := false
  sched := []
  sent := []
  made := []
  born := keys
  bornAt := 0
  began := 0

theorem first_genesis (keys : List Key) : Genesis (first keys) :=
  ⟨rfl, rfl, rfl, rfl, rfl, rfl, rfl, rfl, rfl, rfl, rfl, rfl, rfl, rfl, rfl, rfl, rfl, rfl⟩

theorem found {c : Cfg} {fs : List Forcing} {fail lost : Bool} {keys : List Key} (l : List Act) (Q : St → Bool)
    (h : (play c fs fail lost (first keys) l).any Q = true) : ∃ s, Reach c (Full c fs fail lost) s ∧ Q s = true := by
  cases e : play c fs fail lost (first keys) l with
  | none => rw [e] at h; cases h
  | some t =>
    rw [e] at h
    exact ⟨t, play_reach l _ (.init (first_genesis keys)) e, h⟩

/-- A session without events: 3599 blocks, then the first block of the next, for which `keys` are ready, or `win` if a new era is due. -/
def session (keys win : List Key) : List Act := [.wait 3599, .op (.block (some ⟨some win, keys, true⟩))]

/-- A last session: the change is announced 75 blocks before its end. -/
def lastSession (keys win : List Key) : List Act :=
  [.wait 3524, .op (.block none), .wait 74, .op (.block (some ⟨some win, keys, true⟩))]

/-! ## C227: the notaries are the validators of the era -/

/-- **C227 (part).** If nothing is forced, elections succeed, the scheduler takes calls and sessions are longer than the delay, the notaries
of the bridge are the validators with which the active era began, except that for less than the delay after the era began the bridge may
still wait for them, paused. -/
theorem C227_calm_partial {c : Cfg} {s : St} (hc : 2 ≤ c.spe) (hd : 0 < c.delay) (h : Reach c (Calm c) s) :
    s.notary = s.born ∨ (s.paused = true ∧ s.block < s.bornAt + c.delay) := by
  cases (reach_inv hc hd h).mode with
  | idle _ q => exact .inl q
  | told _ q => exact .inl q
  | pending _ q2 _ _ _ q6 => exact .inr ⟨q6, q2⟩

/-- A calm history into the second era, with full sessions. -/
theorem second_era : ∃ s, Reach root (Full root [] false false) s ∧
    (decide (s.active = 1) && decide (s.notary = [3, 4]) && decide (s.born = [3, 4]) && decide (s.setId = 1) && decide (s.block = 21600) &&
      decide (s.sent = [(1, [3, 4])]) && decide (s.made = [(1, [3, 4])])) = true :=
  found (keys := [1, 2]) (session [1, 2] [3, 4] ++ session [1, 2] [3, 4] ++ session [1, 2] [3, 4] ++ session [1, 2] [3, 4] ++
    session [1, 2] [3, 4] ++ lastSession [3, 4] [5, 6]) _ (by decide +kernel)

/-- Full sessions in which nothing is forced, elections succeed and the scheduler takes calls are calm. -/
theorem full_calm {c : Cfg} {s : St} (hd : c.delay < c.epoch) (h : Reach c (Full c [] false false) s) : Reach c (Calm c) s := by
  induction h with
  | init hg => exact .init hg
  | @step s op _ hop ih =>
    refine .step ih ?_
    cases op with
    | force f => exact absurd hop List.not_mem_nil
    | block r =>
      cases r with
      | none => trivial
      | some r =>
        obtain ⟨h1, h2, h3⟩ := hop
        refine ⟨h1.resolve_left Bool.false_ne_true, h2.resolve_left Bool.false_ne_true, ?_⟩
        show s.began + c.delay < s.block + 1
        omega

example : ∃ s, Reach root (Calm root) s ∧ s.active = 1 ∧ s.notary = [3, 4] := by
  obtain ⟨s, h, q⟩ := second_era
  simp only [Bool.and_eq_true, decide_eq_true_eq] at q
  exact ⟨s, full_calm (by decide) h, q.1.1.1.1.1.1, q.1.1.1.1.1.2⟩

/-- **C227 (refuted for forced eras).** Root forces a new era once. Its validators `[3, 4]` are in office for a whole session and are not the
notaries; no change is pending. -/
theorem C227_forced_refuted : ∃ s, Reach root (Full root [.forceNew] false false) s ∧ s.born = [3, 4] ∧ s.notary = [1, 2] ∧
    s.bornAt + 3000 ≤ s.block ∧ s.sched = [] ∧ s.nextChange = none := by
  obtain ⟨s, h, q⟩ := found (c := root) (fs := [.forceNew]) (fail := false) (lost := false) (keys := [1, 2])
    (session [1, 2] [3, 4] ++ [.wait 100, .op (.force .forceNew), .wait 3499, .op (.block (some ⟨some [3, 4], [1, 2], true⟩)), .wait 74,
      .op (.block none), .wait 3524, .op (.block (some ⟨some [3, 4], [3, 4], true⟩)), .wait 3000])
    (fun s => decide (s.born = [3, 4]) && decide (s.notary = [1, 2]) && decide (s.bornAt + 3000 ≤ s.block) && s.sched.isEmpty &&
      s.nextChange.isNone) (by decide +kernel)
  simp only [Bool.and_eq_true, decide_eq_true_eq, List.isEmpty_iff, Option.isNone_iff_eq_none] at q
  exact ⟨s, h, q.1.1.1.1, q.1.1.1.2, q.1.1.2, q.1.2, q.2⟩

/-- **C227 (refuted for late eras).** One election fails, the next one, a session later, succeeds. The validators of the late era are in
office for a whole session and are not the notaries; no change is pending. -/
theorem C227_late_refuted : ∃ s, Reach root (Full root [] true false) s ∧ s.born = [3, 4] ∧ s.notary = [1, 2] ∧
    s.bornAt + 3000 ≤ s.block ∧ s.sched = [] ∧ s.nextChange = none := by
  obtain ⟨s, h, q⟩ := found (c := root) (fs := []) (fail := true) (lost := false) (keys := [1, 2])
    (session [1, 2] [3, 4] ++ session [1, 2] [3, 4] ++ session [1, 2] [3, 4] ++ session [1, 2] [3, 4] ++
      [.wait 3599, .op (.block (some ⟨none, [1, 2], true⟩))] ++ lastSession [1, 2] [3, 4] ++ session [3, 4] [5, 6] ++ [.wait 3000])
    (fun s => decide (s.born = [3, 4]) && decide (s.notary = [1, 2]) && decide (s.bornAt + 3000 ≤ s.block) && s.sched.isEmpty &&
      s.nextChange.isNone) (by decide +kernel)
  simp only [Bool.and_eq_true, decide_eq_true_eq, List.isEmpty_iff, Option.isNone_iff_eq_none] at q
  exact ⟨s, h, q.1.1.1.1, q.1.1.1.2, q.1.1.2, q.1.2, q.2⟩

/-! ## C228: what Ethereum is told about the notaries -/

/-- **C228 (part).** In a calm history, a set of at most 97 notaries takes effect only after Ethereum was told its keys and its number. -/
theorem C228_announced_partial {c : Cfg} {s : St} {n : Nat} {keys : List Key} (hc : 2 ≤ c.spe) (hd : 0 < c.delay)
    (h : Reach c (Calm c) s) (hm : (n, keys) ∈ s.made) (hk : keys.length ≤ 97) : (n, keys) ∈ s.sent :=
  ((reach_inv hc hd h).made _ hm).2 (decide_eq_true (by show 32 * (3 + keys.length) ≤ 3200; omega))

/-- No number was told with two sets. -/
def Uniq (s : St) : Prop := ∀ p ∈ s.sent, ∀ q ∈ s.sent, p.1 = q.1 → p = q

theorem handle_uniq {s : St} (h : Uniq s) (hle : ∀ p ∈ s.sent, p.1 ≤ s.setId) : Uniq (handle s) := by
  have key : ∀ l : List (Nat × List Key), l = s.sent → ∀ p ∈ (s.setId + 1, s.nextKeys) :: l, ∀ q ∈ (s.setId + 1, s.nextKeys) :: l,
      p.1 = q.1 → p = q := by
    rintro l rfl p hp q hq e
    rcases List.mem_cons.1 hp with hp | hp <;> rcases List.mem_cons.1 hq with hq | hq
    · rw [hp, hq]
    · have := hle q hq
      rw [hp] at e
      change s.setId + 1 = q.1 at e
      omega
    · have := hle p hp
      rw [hq] at e
      change p.1 = s.setId + 1 at e
      omega
    · exact h p hp q hq e
  unfold Uniq handle
  dsimp only
  split
  · exact key _ rfl
  · exact h

theorem runSched_sent (s : St) : (runSched s).sent = s.sent := by
  unfold runSched
  generalize s.sched.filter (fun p => decide (p.1 = s.block)) = l
  have : ∀ (l : List (Nat × List Key)) (s : St), (l.foldl (fun s p => finalise s p.2) s).sent = s.sent := by
    intro l
    induction l with
    | nil => intro s; rfl
    | cons p l ih => intro s; exact ih _
  exact this _ _

theorem startSession_sent (s : St) : (startSession s).sent = s.sent := by
  unfold startSession
  split
  · split <;> rfl
  · rfl

theorem plan_sent (c : Cfg) (s : St) (w : Option (List Key)) : (plan c s w).sent = s.sent := by
  unfold plan
  split
  · split <;> rfl
  · rfl

theorem rotate_sent (c : Cfg) (s : St) (r : Rot) : (rotate c s r).sent = (ending c s r.sch).sent := by
  unfold rotate
  show (plan c { startSession (advance (ending c s r.sch)) with queued := r.same } r.win).sent = _
  rw [plan_sent]
  show (startSession (advance (ending c s r.sch))).sent = _
  rw [startSession_sent]
  rfl

theorem ending_uniq {c : Cfg} {s : St} {b : Bool} (hi : Inv c s) (h : Uniq s) : Uniq (ending c s b) := by
  unfold ending
  split
  · rename_i hf
    split
    · exact h
    · rename_i hch
      have hle : ∀ p ∈ s.sent, p.1 ≤ s.setId := by
        cases hi.mode with
        | idle _ _ _ _ q => exact q
        | told _ _ _ _ _ _ _ _ q =>
          intro p hp
          rcases q p hp with e | e
          · exact e
          · exact absurd e.1 hch
        | pending _ _ _ q => rw [q] at hf; cases hf
      exact handle_uniq h hle
  · exact h

theorem due_uniq {c : Cfg} {s : St} (hi : Inv c s) (h : Uniq s) : Uniq (dueChange s) := by
  unfold dueChange
  split
  · rename_i hn
    refine handle_uniq h ?_
    cases hi.mode with
    | idle _ _ _ _ q => exact q
    | told _ _ _ q => rw [q] at hn; cases hn
    | pending _ _ _ _ q => rw [q] at hn; cases hn
  · exact h

theorem reach_uniq {c : Cfg} {s : St} (hc : 2 ≤ c.spe) (hd : 0 < c.delay) (h : Reach c (Calm c) s) : Uniq s := by
  induction h with
  | init hg => intro p hp; rw [hg.sent] at hp; exact absurd hp List.not_mem_nil
  | @step s op hr hop ih =>
    have hi := reach_inv hc hd hr
    cases op with
    | force f => exact hop.elim
    | block r =>
      have ht := tick_inv hi
      have hu : Uniq (runSched { s with block := s.block + 1 }) := by
        intro p hp q hq
        rw [runSched_sent] at hp hq
        exact ih p hp q hq
      cases r with
      | none => exact due_uniq ht hu
      | some r =>
        have hr' : Inv c (rotate c (runSched { s with block := s.block + 1 }) r) := rotate_inv hc hd hi hop
        refine due_uniq hr' ?_
        intro p hp q hq
        rw [rotate_sent] at hp hq
        exact ending_uniq ht hu p hp q hq

/-- **C228 (part).** In a calm history, Ethereum is never told two sets of notaries with one number. -/
theorem C228_one_partial {c : Cfg} {s : St} {n : Nat} {k₁ k₂ : List Key} (hc : 2 ≤ c.spe) (hd : 0 < c.delay) (h : Reach c (Calm c) s)
    (h₁ : (n, k₁) ∈ s.sent) (h₂ : (n, k₂) ∈ s.sent) : k₁ = k₂ :=
  congrArg Prod.snd (reach_uniq hc hd h _ h₁ _ h₂ rfl)

example : ∃ s, Reach root (Calm root) s ∧ (1, [3, 4]) ∈ s.made ∧ (1, [3, 4]) ∈ s.sent := by
  obtain ⟨s, h, q⟩ := second_era
  simp only [Bool.and_eq_true, decide_eq_true_eq] at q
  refine ⟨s, full_calm (by decide) h, ?_, ?_⟩
  · rw [q.2]; exact List.mem_cons_self
  · rw [q.1.2]; exact List.mem_cons_self

/-- The sets that took effect are numbered from one, and the notaries are the latest of them (at first `g`). -/
def Numbered (g : List Key) (s : St) : Prop :=
  s.made.map Prod.fst = ((List.range s.setId).map (· + 1)).reverse ∧ s.notary = ((s.made.head?).map Prod.snd).getD g

theorem finalise_numbered {g : List Key} {s : St} (k : List Key) (h : Numbered g s) : Numbered g (finalise s k) := by
  refine ⟨?_, rfl⟩
  show (s.setId + 1) :: s.made.map Prod.fst = ((List.range (s.setId + 1)).map (· + 1)).reverse
  rw [h.1, List.range_succ, List.map_append, List.reverse_append]
  rfl

theorem step_numbered {c : Cfg} {g : List Key} {s : St} {op : Op} (h : Numbered g s) : Numbered g (step c s op) := by
  have due : ∀ t, Numbered g t → Numbered g (dueChange t) := by
    intro t ht
    unfold dueChange
    split
    · exact ht
    · exact ht
  cases op with
  | force f => exact h
  | block r =>
    have ht : Numbered g (runSched { s with block := s.block + 1 }) := by
      unfold runSched
      dsimp only
      generalize s.sched.filter (fun p => decide (p.1 = s.block + 1)) = l
      have : ∀ (l : List (Nat × List Key)) (s : St), Numbered g s → Numbered g (l.foldl (fun s p => finalise s p.2) s) := by
        intro l
        induction l with
        | nil => intro s hs; exact hs
        | cons p l ih => intro s hs; exact ih _ (finalise_numbered _ hs)
      exact this l _ h
    generalize hs : runSched { s with block := s.block + 1 } = t at ht
    cases r with
    | none => show Numbered g (dueChange (runSched { s with block := s.block + 1 })); rw [hs]; exact due _ ht
    | some r =>
      show Numbered g (dueChange (rotate c (runSched { s with block := s.block + 1 }) r))
      rw [hs]
      refine due _ ?_
      have he : Numbered g (ending c t r.sch) := by
        unfold ending
        split
        · split
          · exact finalise_numbered _ ht
          · exact ht
        · exact ht
      have hst : Numbered g (startSession (advance (ending c t r.sch))) := by
        unfold startSession
        split
        · split <;> exact he
        · exact he
      unfold rotate
      show Numbered g (plan c { startSession (advance (ending c t r.sch)) with queued := r.same } r.win)
      unfold plan
      split
      · split <;> exact hst
      · exact hst

/-- **C228.** Whatever is forced, fails or is late: the sets of notaries that take effect are numbered one after the other, and those of the
bridge are the latest one (at first the validators of the first block). -/
theorem C228_numbers {c : Cfg} {s : St} (h : Reach c Any s) :
    ∃ g, Numbered g s := by
  induction h with
  | @init s hg =>
    refine ⟨s.vals, ?_, ?_⟩
    · rw [hg.made, hg.setId]; rfl
    · rw [hg.notary, hg.made]; rfl
  | step _ _ ih =>
    obtain ⟨g, hn⟩ := ih
    exact ⟨g, step_numbered hn⟩

theorem full_any {c : Cfg} {fs : List Forcing} {fail lost : Bool} {s : St} (h : Reach c (Full c fs fail lost) s) : Reach c Any s := by
  induction h with
  | init hg => exact .init hg
  | step _ _ ih => exact .step ih trivial

example : ∃ s, Reach root Any s ∧ s.setId = 1 ∧ s.notary = [3, 4] ∧ s.made = [(1, [3, 4])] := by
  obtain ⟨s, h, q⟩ := second_era
  simp only [Bool.and_eq_true, decide_eq_true_eq] at q
  exact ⟨s, full_any h, q.1.1.1.2, q.1.1.1.1.1.2, q.2⟩

/-- **C228 (refuted for large sets).** With 98 validators elected, the new notaries take effect and Ethereum was never told about any set. -/
theorem C228_size_refuted : ∃ s, Reach root (Full root [] false false) s ∧ s.notary = List.range 98 ∧ s.setId = 1 ∧ s.sent = [] := by
  obtain ⟨s, h, q⟩ := found (c := root) (fs := []) (fail := false) (lost := false) (keys := [1, 2])
    (session [1, 2] [] ++ session [1, 2] [] ++ session [1, 2] [] ++ session [1, 2] [] ++
    session [1, 2] (List.range 98) ++ lastSession (List.range 98) [] ++ [.wait 74, .op (.block none)])
    (fun s => decide (s.notary = List.range 98) && decide (s.setId = 1) && s.sent.isEmpty) (by decide +kernel)
  simp only [Bool.and_eq_true, decide_eq_true_eq, List.isEmpty_iff] at q
  exact ⟨s, h, q.1.1, q.1.2, q.2⟩

/-- A new era in every session is forced, and stopped again after the next notaries were announced. -/
def stopped : List Act :=
  session [1, 2] [3, 4] ++ [.wait 100, .op (.force .forceAlways), .wait 3499, .op (.block (some ⟨some [3, 4], [1, 2], true⟩)), .wait 74,
    .op (.block none), .wait 3449, .op (.block none), .wait 10, .op (.force .forceNone), .wait 64,
    .op (.block (some ⟨some [3, 4], [3, 4], true⟩)), .wait 3000]

/-- **C228 (refuted when forcing is stopped).** Ethereum is told the sets `[3, 4]` and `[3, 5]` with one number. -/
theorem C228_two_refuted : ∃ s, Reach root (Full root [.forceAlways, .forceNone] false false) s ∧ (2, [3, 4]) ∈ s.sent ∧
    (2, [3, 5]) ∈ s.sent := by
  obtain ⟨s, h, q⟩ := found (c := root) (fs := [.forceAlways, .forceNone]) (fail := false) (lost := false) (keys := [1, 2])
    (stopped ++ [.wait 599, .op (.block (some ⟨some [], [3, 4], true⟩))] ++ session [3, 5] [] ++ session [3, 5] [] ++ session [3, 5] [] ++
      session [3, 5] [] ++ [.wait 3524, .op (.block none)])
    (fun s => s.sent.contains (2, [3, 4]) && s.sent.contains (2, [3, 5])) (by decide +kernel)
  simp only [Bool.and_eq_true, List.contains_iff_mem] at q
  exact ⟨s, h, q.1, q.2⟩

/-! ## C229: how long the bridge is paused -/

/-- **C229 (part).** In a calm history, the bridge is paused for a change of notaries only in the last session of an era, from `delay` blocks
before its planned end, and for less than `delay` blocks after the era began. -/
theorem C229_calm_partial {c : Cfg} {s : St} (hc : 2 ≤ c.spe) (hd : 0 < c.delay) (h : Reach c (Calm c) s) (hp : s.paused = true) :
    s.block < s.bornAt + c.delay ∨
      ((∃ a, s.start s.active = some a ∧ s.index + 1 = a + c.spe) ∧ s.began + (c.epoch - c.delay) ≤ s.block) := by
  have hi := reach_inv hc hd h
  obtain ⟨a, hE⟩ := hi.eras
  cases hi.mode with
  | idle _ _ _ q => rw [q] at hp; cases hp
  | told _ _ q3 _ _ _ q7 => exact .inr ⟨⟨a, hE.start, (final_iff hE).1 q3⟩, q7⟩
  | pending _ q2 => exact .inl q2

/-- The bridge is paused in the last session of the first era, and no longer in the second. -/
example : (∃ s, Reach root (Calm root) s ∧ s.paused = true) ∧ ∃ s, Reach root (Calm root) s ∧ s.active = 1 ∧ s.paused = false := by
  constructor
  · obtain ⟨s, h, q⟩ := found (c := root) (fs := []) (fail := false) (lost := false) (keys := [1, 2])
      (session [1, 2] [3, 4] ++ session [1, 2] [3, 4] ++ session [1, 2] [3, 4] ++ session [1, 2] [3, 4] ++
        session [1, 2] [3, 4] ++ [.wait 3524, .op (.block none)]) (fun s => s.paused) (by decide +kernel)
    exact ⟨s, full_calm (by decide) h, q⟩
  · obtain ⟨s, h, q⟩ := found (c := root) (fs := []) (fail := false) (lost := false) (keys := [1, 2])
      (session [1, 2] [3, 4] ++ session [1, 2] [3, 4] ++ session [1, 2] [3, 4] ++ session [1, 2] [3, 4] ++
        session [1, 2] [3, 4] ++ lastSession [3, 4] [5, 6]) (fun s => decide (s.active = 1) && !s.paused) (by decide +kernel)
    simp only [Bool.and_eq_true, decide_eq_true_eq, Bool.not_eq_true'] at q
    exact ⟨s, full_calm (by decide) h, q.1, q.2⟩

/-- **C229 (refuted when forcing is stopped).** The bridge is still paused 3000 blocks into a session that is not the last of its era, and
nothing is pending that would end the pause. -/
theorem C229_stopped_refuted : ∃ s, Reach root (Full root [.forceAlways, .forceNone] false false) s ∧ s.paused = true ∧
    s.bornAt + 3000 ≤ s.block ∧ s.start s.active = some s.index ∧ s.sched = [] ∧ s.nextChange = none := by
  obtain ⟨s, h, q⟩ := found (c := root) (fs := [.forceAlways, .forceNone]) (fail := false) (lost := false) (keys := [1, 2]) stopped
    (fun s => s.paused && decide (s.bornAt + 3000 ≤ s.block) && decide (s.start s.active = some s.index) && s.sched.isEmpty &&
      s.nextChange.isNone) (by decide +kernel)
  simp only [Bool.and_eq_true, decide_eq_true_eq, List.isEmpty_iff, Option.isNone_iff_eq_none] at q
  exact ⟨s, h, q.1.1.1.1, q.1.1.1.2, q.1.1.2, q.1.2, q.2⟩

/-- **C229 (refuted when the scheduler refuses).** After a forced era whose handover the scheduler did not take, the bridge is paused for a
whole session and nothing is pending that would end the pause. -/
theorem C229_lost_refuted : ∃ s, Reach root (Full root [.forceNew] false true) s ∧ s.paused = true ∧
    s.began + 3000 ≤ s.block ∧ s.sched = [] ∧ s.nextChange = none := by
  obtain ⟨s, h, q⟩ := found (c := root) (fs := [.forceNew]) (fail := false) (lost := true) (keys := [1, 2])
    (session [1, 2] [3, 4] ++ [.wait 100, .op (.force .forceNew), .wait 3499, .op (.block (some ⟨some [3, 4], [1, 2], false⟩)), .wait 3000])
    (fun s => s.paused && decide (s.began + 3000 ≤ s.block) && s.sched.isEmpty && s.nextChange.isNone) (by decide +kernel)
  simp only [Bool.and_eq_true, decide_eq_true_eq, List.isEmpty_iff, Option.isNone_iff_eq_none] at q
  exact ⟨s, h, q.1.1.1, q.1.1.2, q.1.2, q.2⟩

end Verif.Era
