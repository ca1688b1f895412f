import Verif.Ethy.Inv

/-! # Claims, challenges, bonds and schedules -/

namespace Verif.Ethy

/-! ## What the loop of `on_initialize` leaves alone -/

/-- The storage the loop does not touch. -/
structure Kept (s t : St) : Prop where
  now : t.now = s.now
  period : t.period = s.period
  processed : t.processed = s.processed
  challenges : t.challenges = s.challenges
  challenger : t.challenger = s.challenger
  votes : t.votes = s.votes
  notaryKeys : t.notaryKeys = s.notaryKeys
  valCount : t.valCount = s.valCount
  relayer : t.relayer = s.relayer
  bond : t.bond = s.bond
  free : t.free = s.free
  held : t.held = s.held

theorem Kept.refl (s : St) : Kept s s := ⟨rfl, rfl, rfl, rfl, rfl, rfl, rfl, rfl, rfl, rfl, rfl, rfl⟩

theorem Kept.trans {s t u : St} (h1 : Kept s t) (h2 : Kept t u) : Kept s u :=
  ⟨h2.now.trans h1.now, h2.period.trans h1.period, h2.processed.trans h1.processed,
   h2.challenges.trans h1.challenges, h2.challenger.trans h1.challenger, h2.votes.trans h1.votes,
   h2.notaryKeys.trans h1.notaryKeys, h2.valCount.trans h1.valCount, h2.relayer.trans h1.relayer,
   h2.bond.trans h1.bond, h2.free.trans h1.free, h2.held.trans h1.held⟩

theorem deliver_cases (s : St) (id : Nat) :
    (s.claims id = none ∧ deliver s id = s) ∨
    ∃ cl, s.claims id = some cl ∧ deliver s id =
      { s with claims := upd s.claims id none, log := .delivered id cl s.now :: s.log } := by
  unfold deliver
  cases hc : s.claims id with
  | none => exact Or.inl ⟨rfl, rfl⟩
  | some cl => exact Or.inr ⟨cl, rfl, rfl⟩

/-- The three outcomes of one round of the loop, ignoring the processed ids. -/
theorem processOne_cases (acc : Loop) (id : Nat) :
    (acc.s.status id = some .challenged ∧ (processOne acc id).s = { acc.s with
        validAt := upd acc.s.validAt (acc.s.now + acc.s.period)
          (acc.s.validAt (acc.s.now + acc.s.period) ++ [id]) }) ∨
    (acc.s.status id ≠ some .challenged ∧ ∃ m, (processOne acc id).s =
      { deliver acc.s id with missed := m, status := upd acc.s.status id none }) := by
  have hst : (deliver acc.s id).status = acc.s.status := by
    rcases deliver_cases acc.s id with ⟨_, e⟩ | ⟨cl, _, e⟩ <;> rw [e]
  unfold processOne
  dsimp only
  split
  · rename_i h; exact Or.inl ⟨h, rfl⟩
  · rename_i h
    refine Or.inr ⟨h, ?_⟩
    split
    · exact ⟨(deliver acc.s id).missed, by rw [hst]⟩
    · exact ⟨(deliver acc.s id).missed.erase id, by rw [hst]⟩

theorem processOne_kept (acc : Loop) (id : Nat) : Kept acc.s (processOne acc id).s := by
  rcases processOne_cases acc id with ⟨_, e⟩ | ⟨_, m, e⟩ <;> rw [e]
  · exact ⟨rfl, rfl, rfl, rfl, rfl, rfl, rfl, rfl, rfl, rfl, rfl, rfl⟩
  · rcases deliver_cases acc.s id with ⟨_, e⟩ | ⟨cl, _, e⟩ <;> rw [e] <;>
      exact ⟨rfl, rfl, rfl, rfl, rfl, rfl, rfl, rfl, rfl, rfl, rfl, rfl⟩

theorem loop_kept : ∀ (l : List Nat) (acc : Loop), Kept acc.s (l.foldl processOne acc).s
  | [], acc => .refl _
  | x :: xs, acc => (processOne_kept acc x).trans (loop_kept xs (processOne acc x))

/-- The start of the loop. -/
def startLoop (s : St) : Loop :=
  ⟨{ s with now := s.now + 1, validAt := upd s.validAt (s.now + 1) [] }, s.processed, false⟩

/-- The end of the loop. -/
def endLoop (s : St) : Loop := (s.validAt (s.now + 1)).foldl processOne (startLoop s)

/-- `on_initialize` is the loop, up to the processed and missed ids. -/
theorem onInitialize_eq (c : Cfg) (s : St) :
    ∃ p m, onInitialize c s = { (endLoop s).s with processed := p, missed := m } := by
  unfold onInitialize
  dsimp only
  split
  · exact ⟨_, _, rfl⟩
  · exact ⟨_, _, rfl⟩

/-! ## Claims and their status -/

/-- Bond of the open challenge of `id`, if `x` is the challenger. -/
def openBond (challenger : Nat → Option (Acct × Nat)) (x : Acct) (id : Nat) : Nat :=
  match challenger id with
  | some cb => if cb.1 = x then cb.2 else 0
  | none => 0

/-- Claims, their status, challengers and votes fit together, and holds are backed. -/
structure CI (c : Cfg) (s : St) : Prop where
  chal : ∀ id, (s.challenger id).isSome ↔ s.status id = some .challenged
  claim : ∀ id, (s.claims id).isSome ↔ (s.status id).isSome
  votes : ∀ id, s.status id ≠ some .challenged → s.votes id = []
  nodup : ∀ id, ((s.votes id).map Prod.fst).Nodup
  backed : ∀ x, ∃ n, TotalIs (openBond s.challenger x) n ∧ s.held x = s.bond x + n
  relayer : ∀ r, s.relayer = some r → c.relayerBond ≤ s.bond r

theorem CI.genesis {c : Cfg} {s : St} (h : Genesis s) : CI c s := by
  refine ⟨?_, ?_, ?_, ?_, ?_, ?_⟩
  · intro id; rw [h.challenger, h.status]; simp
  · intro id; rw [h.claims, h.status]; simp
  · intro id _; exact h.votes id
  · intro id; rw [h.votes]; simp
  · intro x
    refine ⟨0, ?_, by rw [h.held, h.bond]⟩
    have : openBond s.challenger x = fun _ => 0 := by
      funext id; simp [openBond, h.challenger]
    rw [this]; exact .zero
  · intro r hr; rw [h.relayer] at hr; cases hr

theorem processOne_CI {c : Cfg} (acc : Loop) (id : Nat) (h : CI c acc.s) : CI c (processOne acc id).s := by
  rcases processOne_cases acc id with ⟨_, e⟩ | ⟨hst, m, e⟩ <;> rw [e]
  · exact ⟨h.chal, h.claim, h.votes, h.nodup, h.backed, h.relayer⟩
  · have hch : acc.s.challenger id = none := by
      have := (h.chal id).not.mpr hst
      simpa using this
    have main : ∀ cls : Nat → Option Nat, cls id = none → (∀ i, i ≠ id → cls i = acc.s.claims i) →
        ∀ i, (cls i).isSome ↔ (upd acc.s.status id none i).isSome := by
      intro cls h0 h1 i
      by_cases hi : i = id
      · subst hi; rw [h0, upd_same]; simp
      · rw [h1 i hi, upd_ne _ _ hi]; exact h.claim i
    have chal' : ∀ i, (acc.s.challenger i).isSome ↔ upd acc.s.status id none i = some .challenged := by
      intro i
      by_cases hi : i = id
      · subst hi; rw [hch, upd_same]; simp
      · rw [upd_ne _ _ hi]; exact h.chal i
    have votes' : ∀ i, upd acc.s.status id none i ≠ some .challenged → acc.s.votes i = [] := by
      intro i
      by_cases hi : i = id
      · subst hi; intro _; exact h.votes i hst
      · rw [upd_ne _ _ hi]; exact h.votes i
    rcases deliver_cases acc.s id with ⟨hc, e⟩ | ⟨cl, hc, e⟩ <;> rw [e]
    · exact ⟨chal', main _ hc (fun _ _ => rfl), votes', h.nodup, h.backed, h.relayer⟩
    · exact ⟨chal', main _ (upd_same _ _ _) (fun i hi => upd_ne _ _ hi), votes', h.nodup, h.backed, h.relayer⟩

theorem onInitialize_CI {c : Cfg} {s : St} (h : CI c s) : CI c (onInitialize c s) := by
  obtain ⟨p, m, e⟩ := onInitialize_eq c s
  rw [e]
  have h0 : CI c (startLoop s).s := ⟨h.chal, h.claim, h.votes, h.nodup, h.backed, h.relayer⟩
  have h1 : CI c (endLoop s).s :=
    foldl_ind (P := fun l : Loop => CI c l.s) (fun b a hb => processOne_CI b a hb) _ _ h0
  exact ⟨h1.chal, h1.claim, h1.votes, h1.nodup, h1.backed, h1.relayer⟩

theorem openBond_upd_none {ch : Nat → Option (Acct × Nat)} {id : Nat} (x : Acct) :
    openBond (upd ch id none) x = upd (openBond ch x) id 0 := by
  funext i
  by_cases hi : i = id
  · subst hi; simp [openBond]
  · rw [upd_ne _ _ hi]; unfold openBond; rw [upd_ne _ _ hi]

theorem openBond_upd_some {ch : Nat → Option (Acct × Nat)} {id : Nat} {who : Acct} {b : Nat} (x : Acct) :
    openBond (upd ch id (some (who, b))) x = upd (openBond ch x) id (if who = x then b else 0) := by
  funext i
  by_cases hi : i = id
  · subst hi; simp [openBond]
  · rw [upd_ne _ _ hi]; unfold openBond; rw [upd_ne _ _ hi]

/-- Closing a challenge lowers the challenger's open bonds by its bond. -/
theorem backed_close {ch : Nat → Option (Acct × Nat)} {id : Nat} {who : Acct} {b : Nat}
    (hc : ch id = some (who, b)) (x : Acct) {n : Nat} (h : TotalIs (openBond ch x) n) :
    ∃ n', TotalIs (openBond (upd ch id none) x) n' ∧ n = n' + (if x = who then b else 0) := by
  have hval : openBond ch x id = if who = x then b else 0 := by simp [openBond, hc]
  have hle : openBond ch x id ≤ n := h.le id
  refine ⟨n - openBond ch x id, ?_, ?_⟩
  · rw [openBond_upd_none]
    have := h.upd_sub id (openBond ch x id) (le_refl _)
    simpa using this
  · rw [hval] at hle ⊢
    by_cases hx : x = who
    · subst hx; simp at hle ⊢; omega
    · have hx' : ¬ who = x := fun h => hx h.symm
      simp [hx, hx']


theorem submit_CI {c : Cfg} {s s' : St} {id cl : Nat} (h : CI c s)
    (hs : doSubmitEvent c s id cl = .ok s') : CI c s' := by
  obtain ⟨hc, _, rfl⟩ := doSubmitEvent_ok hs
  have hst : s.status id = none := by
    have := (h.claim id).not.mp (by rw [hc]; simp)
    simpa using this
  have hch : s.challenger id = none := by
    have := (h.chal id).not.mpr (by rw [hst]; simp)
    simpa using this
  refine ⟨?_, ?_, ?_, h.nodup, h.backed, h.relayer⟩
  · intro i
    dsimp only
    by_cases hi : i = id
    · subst hi; rw [hch, upd_same]; simp
    · rw [upd_ne _ _ hi]; exact h.chal i
  · intro i
    dsimp only
    by_cases hi : i = id
    · subst hi; rw [upd_same, upd_same]; simp
    · rw [upd_ne _ _ hi, upd_ne _ _ hi]; exact h.claim i
  · intro i
    dsimp only
    by_cases hi : i = id
    · subst hi; intro _; exact h.votes i (by rw [hst]; simp)
    · rw [upd_ne _ _ hi]; exact h.votes i

theorem challenge_CI {c : Cfg} {s s' : St} {who : Acct} {id : Nat} (h : CI c s)
    (hs : submitChallenge c s who id = .ok s') : CI c s' := by
  obtain ⟨hc, hst, hfree, _, rfl⟩ := submitChallenge_ok hs
  have hch : s.challenger id = none := by
    have := (h.chal id).not.mpr (by rw [hst]; simp)
    simpa using this
  refine ⟨?_, ?_, ?_, h.nodup, ?_, h.relayer⟩
  · intro i
    dsimp only
    by_cases hi : i = id
    · subst hi; rw [upd_same, upd_same]; simp
    · rw [upd_ne _ _ hi, upd_ne _ _ hi]; exact h.chal i
  · intro i
    dsimp only
    by_cases hi : i = id
    · subst hi; rw [upd_same]; simp [hc]
    · rw [upd_ne _ _ hi]; exact h.claim i
  · intro i
    dsimp only
    by_cases hi : i = id
    · subst hi; rw [upd_same]; simp
    · rw [upd_ne _ _ hi]; exact h.votes i
  · intro x
    obtain ⟨n, ht, hb⟩ := h.backed x
    dsimp only
    have h0 : openBond s.challenger x id = 0 := by simp [openBond, hch]
    rw [openBond_upd_some]
    by_cases hx : who = x
    · subst hx
      refine ⟨n + c.challengeBond, ?_, ?_⟩
      · have := ht.upd_add id c.challengeBond
        rw [h0, Nat.zero_add] at this
        simpa using this
      · rw [upd_same]; omega
    · refine ⟨n, ?_, ?_⟩
      · have := ht.upd_add id 0
        rw [h0] at this
        simpa [hx] using this
      · rw [upd_ne _ _ (fun e => hx e.symm)]; exact hb

theorem withVote_CI {c : Cfg} {s : St} {id : Nat} {key : Key} {yes : Bool} (h : CI c s)
    (hst : s.status id = some .challenged) (hf : ∀ kv ∈ s.votes id, kv.1 ≠ key) :
    CI c (withVote s id key yes) := by
  refine ⟨h.chal, h.claim, ?_, ?_, h.backed, h.relayer⟩
  · intro i hi
    simp only [withVote] at hi ⊢
    have hne : i ≠ id := by rintro rfl; exact hi hst
    rw [upd_ne _ _ hne]; exact h.votes i hi
  · intro i
    simp only [withVote]
    by_cases hi : i = id
    · subst hi
      rw [upd_same, List.map_append]
      refine List.nodup_append.mpr ⟨h.nodup i, by simp, ?_⟩
      intro a ha b hb
      simp only [List.map_cons, List.map_nil, List.mem_cons, List.not_mem_nil, or_false] at hb
      subst hb
      obtain ⟨kv, hkv, rfl⟩ := List.mem_map.mp ha
      exact hf kv hkv
    · rw [upd_ne _ _ hi]; exact h.nodup i

/-- The part of the invariant about a claim whose challenge is closed with the given status. -/
theorem close_parts {c : Cfg} {s : St} {id : Nat} (h : CI c s) (st : Option Status)
    (hne : st ≠ some .challenged) :
    (∀ i, (upd s.challenger id none i).isSome ↔ upd s.status id st i = some .challenged) ∧
    (∀ i, upd s.status id st i ≠ some .challenged → upd s.votes id [] i = []) ∧
    (∀ i, ((upd s.votes id [] i).map Prod.fst).Nodup) := by
  refine ⟨?_, ?_, ?_⟩
  · intro i
    by_cases hi : i = id
    · subst hi; rw [upd_same, upd_same]; simp [hne]
    · rw [upd_ne _ _ hi, upd_ne _ _ hi]; exact h.chal i
  · intro i
    by_cases hi : i = id
    · subst hi; rw [upd_same]; simp
    · rw [upd_ne _ _ hi, upd_ne _ _ hi]; exact h.votes i
  · intro i
    by_cases hi : i = id
    · subst hi; rw [upd_same]; simp
    · rw [upd_ne _ _ hi]; exact h.nodup i

theorem invalid_CI {c : Cfg} {s s' : St} {id : Nat} (h : CI c s) (hst : s.status id = some .challenged)
    (hs : handleInvalidClaim s id = .ok s') : CI c s' := by
  obtain ⟨p1, p2, p3⟩ := close_parts (id := id) h none (by simp)
  have p4 : ∀ i, (upd s.claims id none i).isSome ↔ (upd s.status id none i).isSome := by
    intro i
    by_cases hi : i = id
    · subst hi; rw [upd_same, upd_same]; simp
    · rw [upd_ne _ _ hi, upd_ne _ _ hi]; exact h.claim i
  obtain ⟨_, ⟨hn, rfl⟩ | ⟨ch, b, hc, hb, ⟨hr, rfl⟩ | ⟨r, f1, h1, hr, rfl, rfl, hbr, rfl⟩⟩⟩ := handleInvalid_ok hs
  · have := (h.chal id).mpr hst; rw [hn] at this; simp at this
  · refine ⟨p1, p4, p2, p3, ?_, h.relayer⟩
    intro x
    obtain ⟨n, ht, he⟩ := h.backed x
    obtain ⟨n', ht', hn'⟩ := backed_close hc x ht
    refine ⟨n', ht', ?_⟩
    simp only [cleared]
    by_cases hx : x = ch
    · subst hx; rw [upd_same]; simp at hn'; omega
    · rw [upd_ne _ _ hx]; simp [hx] at hn'; omega
  · refine ⟨p1, p4, p2, p3, ?_, by intro r hr; cases hr⟩
    intro x
    obtain ⟨n, ht, he⟩ := h.backed x
    obtain ⟨n', ht', hn'⟩ := backed_close hc x ht
    refine ⟨n', ht', ?_⟩
    simp only [cleared]
    by_cases hx : x = ch <;> by_cases hxr : x = r
    · subst hx; subst hxr
      rw [upd_same, upd_same, upd_same]; rw [if_pos rfl] at hn'; omega
    · subst hx
      rw [upd_ne _ _ hxr, upd_ne _ _ hxr, upd_same]; rw [if_pos rfl] at hn'; omega
    · subst hxr
      rw [upd_same, upd_same, upd_ne _ _ hx]; rw [if_neg hx] at hn'; omega
    · rw [upd_ne _ _ hxr, upd_ne _ _ hxr, upd_ne _ _ hx]; rw [if_neg hx] at hn'; omega

theorem valid_CI {c : Cfg} {s s' : St} {id : Nat} (h : CI c s) (hst : s.status id = some .challenged)
    (hs : handleValidClaim s id = .ok s') : CI c s' := by
  obtain ⟨p1, p2, p3⟩ := close_parts (id := id) h (some .provenValid) (by simp)
  have p4 : ∀ i, (s.claims i).isSome ↔ (upd s.status id (some .provenValid) i).isSome := by
    intro i
    by_cases hi : i = id
    · subst hi; rw [upd_same, h.claim i, hst]; simp
    · rw [upd_ne _ _ hi]; exact h.claim i
  obtain ⟨_, ⟨hr, rfl⟩ | ⟨r, hr, ⟨hn, rfl⟩ | ⟨ch, b, hc, hb, rfl⟩⟩⟩ := handleValid_ok hs
  · refine ⟨h.chal, h.claim, ?_, p3, h.backed, h.relayer⟩
    intro i hi
    simp only [cleared] at hi ⊢
    have hne : i ≠ id := by rintro rfl; exact hi hst
    rw [upd_ne _ _ hne]; exact h.votes i hi
  · have := (h.chal id).mpr hst; rw [hn] at this; simp at this
  · refine ⟨p1, p4, p2, p3, ?_, h.relayer⟩
    intro x
    obtain ⟨n, ht, he⟩ := h.backed x
    obtain ⟨n', ht', hn'⟩ := backed_close hc x ht
    refine ⟨n', ht', ?_⟩
    simp only [cleared]
    by_cases hx : x = ch
    · subst hx; rw [upd_same]; simp at hn'; omega
    · rw [upd_ne _ _ hx]; simp [hx] at hn'; omega

theorem CI.step {c : Cfg} {s s' : St} {op : Op} (h : CI c s) (hs : step c s op = .ok s') : CI c s' := by
  cases op with
  | submitEvent who id cl => exact submit_CI h (submitEvent_ok hs).2.2
  | submitMissing who id cl => exact submit_CI h (submitMissing_ok hs).2.2
  | challenge who id => exact challenge_CI h hs
  | notarize idx id yes =>
    obtain ⟨key, _, hf, hst, ⟨_, hi⟩ | ⟨_, hv⟩ | ⟨_, _, rfl⟩⟩ := notarize_ok hs
    · exact invalid_CI (withVote_CI h hst hf) hst hi
    · exact valid_CI (withVote_CI h hst hf) hst hv
    · exact withVote_CI h hst hf
  | setRelayer who =>
    obtain ⟨hb, rfl⟩ := setRelayer_ok hs
    refine ⟨h.chal, h.claim, h.votes, h.nodup, h.backed, ?_⟩
    intro r hr
    cases hr; exact hb
  | depositBond who =>
    obtain ⟨h0, hf, rfl⟩ := depositBond_ok hs
    refine ⟨h.chal, h.claim, h.votes, h.nodup, ?_, ?_⟩
    · intro x
      obtain ⟨n, ht, he⟩ := h.backed x
      refine ⟨n, ht, ?_⟩
      dsimp only
      by_cases hx : x = who
      · subst hx; rw [upd_same, upd_same]; omega
      · rw [upd_ne _ _ hx, upd_ne _ _ hx]; exact he
    · intro r hr
      dsimp only at hr ⊢
      by_cases hx : r = who
      · subst hx; rw [upd_same]
      · rw [upd_ne _ _ hx]; exact h.relayer r hr
  | withdrawBond who =>
    obtain ⟨hn, _, hb, rfl⟩ := withdrawBond_ok hs
    refine ⟨h.chal, h.claim, h.votes, h.nodup, ?_, ?_⟩
    · intro x
      obtain ⟨n, ht, he⟩ := h.backed x
      refine ⟨n, ht, ?_⟩
      dsimp only
      by_cases hx : x = who
      · subst hx; rw [upd_same, upd_same]; omega
      · rw [upd_ne _ _ hx, upd_ne _ _ hx]; exact he
    · intro r hr
      dsimp only at hr ⊢
      have hx : r ≠ who := by rintro rfl; exact hn hr
      rw [upd_ne _ _ hx]; exact h.relayer r hr
  | setPeriod n =>
    simp only [Ethy.step, Except.ok.injEq] at hs; subst hs
    exact ⟨h.chal, h.claim, h.votes, h.nodup, h.backed, h.relayer⟩
  | removeMissing lo hi =>
    simp only [Ethy.step, Except.ok.injEq] at hs; subst hs
    exact ⟨h.chal, h.claim, h.votes, h.nodup, h.backed, h.relayer⟩
  | setNotaries keys n =>
    simp only [Ethy.step, Except.ok.injEq] at hs; subst hs
    exact ⟨h.chal, h.claim, h.votes, h.nodup, h.backed, h.relayer⟩
  | fund who amt =>
    simp only [Ethy.step, Except.ok.injEq] at hs; subst hs
    exact ⟨h.chal, h.claim, h.votes, h.nodup, h.backed, h.relayer⟩
  | nextBlock =>
    simp only [Ethy.step, Except.ok.injEq] at hs; subst hs
    exact onInitialize_CI h

theorem ReachP.ci {c : Cfg} {P : Op → Prop} {G : St → Prop} {s : St} (h : ReachP c P G s) : CI c s := by
  induction h with
  | init hg _ => exact .genesis hg
  | step _ _ hs ih => exact ih.step hs

end Verif.Ethy
