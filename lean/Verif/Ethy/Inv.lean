import Verif.Ethy.Lemmas

/-! # Invariants of the bridge model -/

namespace Verif.Ethy

theorem foldl_ind {α β : Type} {f : β → α → β} {P : β → Prop} (hf : ∀ b a, P b → P (f b a)) :
    ∀ (l : List α) (b : β), P b → P (l.foldl f b)
  | [], _, h => h
  | a :: l, b, h => foldl_ind hf l (f b a) (hf b a h)

/-! ## Replay protection -/

/-- The replay-protection invariant over the processed ids, missed ids, pending claims and the log. -/
structure RI (ids missed : List Nat) (claims : Nat → Option Nat) (log : List Ev) : Prop where
  sortedP : ids.Pairwise (· < ·)
  sortedM : missed.Pairwise (· < ·)
  missLt : ∀ id ∈ missed, id < ids.headD 0
  del : ∀ id, deliveries id log ≠ [] →
    ids ≠ [] ∧ (id ≤ ids.headD 0 ∨ id ∈ ids) ∧ id ∉ missed ∧ claims id = none
  once : ∀ id, (deliveries id log).length ≤ 1

/-- The invariant survives anything that removes claims or missed ids and delivers nothing. -/
theorem RI.mono {ids missed missed' : List Nat} {claims claims' : Nat → Option Nat} {log log' : List Ev}
    (h : RI ids missed claims log) (hm : missed'.Sublist missed)
    (hc : ∀ id, deliveries id log ≠ [] → claims id = none → claims' id = none)
    (hl : ∀ id, deliveries id log' = deliveries id log) : RI ids missed' claims' log' := by
  refine ⟨h.sortedP, h.sortedM.sublist hm, fun id hi => h.missLt id (hm.subset hi), ?_, ?_⟩
  · intro id hd
    rw [hl] at hd
    obtain ⟨h1, h2, h3, h4⟩ := h.del id hd
    exact ⟨h1, h2, fun hi => h3 (hm.subset hi), hc id hd h4⟩
  · intro id; rw [hl]; exact h.once id

/-- The part of a loop state the replay invariant is about. -/
def LoopRI (acc : Loop) : Prop := RI acc.ids acc.s.missed acc.s.claims acc.s.log

theorem mem_erase_sorted {l : List Nat} (h : l.Pairwise (· < ·)) (x : Nat) : x ∉ l.erase x := by
  have hn : l.Nodup := h.imp (fun hab => ne_of_lt hab)
  intro hx
  exact ((List.Nodup.mem_erase_iff hn).mp hx).1 rfl

theorem processOne_RI (acc : Loop) (id : Nat) (h : LoopRI acc) : LoopRI (processOne acc id) := by
  unfold LoopRI at h
  unfold processOne
  dsimp only
  split
  · exact h
  · -- claims and log after the delivery
    have step1 : ∀ (ids' missed' : List Nat), ids'.Pairwise (· < ·) → missed'.Pairwise (· < ·) →
        (∀ i ∈ missed', i < ids'.headD 0) → ids' ≠ [] → (id ≤ ids'.headD 0 ∨ id ∈ ids') →
        id ∉ missed' → (∀ i, i ∈ missed' → i ∈ acc.s.missed) →
        (acc.ids ≠ [] → ∀ i, i ≤ acc.ids.headD 0 ∨ i ∈ acc.ids → i ≤ ids'.headD 0 ∨ i ∈ ids') →
        RI ids' missed'
          (deliver acc.s id).claims
          (deliver acc.s id).log := by
      intro ids' missed' hp hm hlt hne hin hnm hsub hkeep
      have old : ∀ i, deliveries i acc.s.log ≠ [] →
          ids' ≠ [] ∧ (i ≤ ids'.headD 0 ∨ i ∈ ids') ∧ i ∉ missed' ∧ acc.s.claims i = none := by
        intro i hd
        obtain ⟨h1, h2, h3, h4⟩ := h.del i hd
        exact ⟨hne, hkeep h1 i h2, fun hi => h3 (hsub i hi), h4⟩
      unfold deliver
      cases hc : acc.s.claims id with
      | none => exact ⟨hp, hm, hlt, old, h.once⟩
      | some cl =>
        have hnd : deliveries id acc.s.log = [] := by
          by_contra hd
          have := (h.del id hd).2.2.2
          rw [hc] at this; cases this
        refine ⟨hp, hm, hlt, ?_, ?_⟩
        · intro i hd
          by_cases hi : i = id
          · subst hi
            exact ⟨hne, hin, hnm, upd_same _ _ _⟩
          · rw [deliveries_cons_ne (by simp [isDelivery, Ne.symm hi])] at hd
            obtain ⟨h1, h2, h3, h4⟩ := old i hd
            exact ⟨h1, h2, h3, by dsimp only; rw [upd_ne _ _ hi]; exact h4⟩
        · intro i
          by_cases hi : i = id
          · subst hi
            have : deliveries i (.delivered i cl acc.s.now :: acc.s.log) =
                .delivered i cl acc.s.now :: deliveries i acc.s.log := by
              simp [deliveries, isDelivery]
            dsimp only
            rw [this, hnd]; simp
          · dsimp only
            rw [deliveries_cons_ne (by simp [isDelivery, Ne.symm hi])]
            exact h.once i
    have hmiss : (deliver acc.s id).missed = acc.s.missed := by
      unfold deliver; split <;> rfl
    split
    · rename_i hle
      unfold LoopRI
      dsimp only
      rw [hmiss]
      have hmem : id ∈ insertSorted id acc.ids := mem_insertSorted.mpr (Or.inl rfl)
      by_cases hne : acc.ids = []
      · have hm0 : acc.s.missed = [] := by
          rw [List.eq_nil_iff_forall_not_mem]
          intro i hi
          have := h.missLt i hi
          rw [hne] at this; simp at this
        refine step1 _ _ (insertSorted_sorted h.sortedP) h.sortedM ?_ insertSorted_ne (Or.inr hmem) ?_
          (fun _ hi => hi) (fun hc => absurd hne hc)
        · rw [hm0]; intro i hi; cases hi
        · rw [hm0]; simp
      · refine step1 _ _ (insertSorted_sorted h.sortedP) h.sortedM ?_ insertSorted_ne (Or.inr hmem) ?_
          (fun _ hi => hi) ?_
        · intro i hi; rw [insertSorted_head hne hle]; exact h.missLt i hi
        · intro hi; have := h.missLt id hi; omega
        · intro _ i hi
          rw [insertSorted_head hne hle]
          rcases hi with hi | hi
          · exact Or.inl hi
          · exact Or.inr (mem_insertSorted.mpr (Or.inr hi))
    · rename_i hlt
      unfold LoopRI
      dsimp only
      rw [hmiss]
      have hne : acc.ids ≠ [] := by rintro e; rw [e] at hlt; simp at hlt
      refine step1 _ _ h.sortedP (h.sortedM.sublist (List.erase_sublist)) ?_ hne (Or.inl (by omega))
        (mem_erase_sorted h.sortedM id) (fun i hi => List.mem_of_mem_erase hi) (fun _ i hi => hi)
      intro i hi
      exact h.missLt i (List.mem_of_mem_erase hi)

theorem prune_RI {c : Cfg} (hmax : 0 < c.maxIds) {ids missed : List Nat} {claims : Nat → Option Nat}
    {log : List Ev} (h : RI ids missed claims log) :
    RI (pruneClaimIds c ids missed).1 (pruneClaimIds c ids missed).2 claims log := by
  unfold pruneClaimIds
  split
  · exact h
  · rename_i hlen
    dsimp only
    set k := ids.length - c.maxIds with hk
    have hkept : ids.drop k ≠ [] := by
      intro e
      have := congrArg List.length e
      rw [List.length_drop] at this
      simp at this
      omega
    have hsuf : compact (ids.drop k) <:+ ids := (compact_suffix _).trans (List.drop_suffix k ids)
    have hcne := compact_ne _ hkept
    have hksort : (ids.drop k).Pairwise (· < ·) := h.sortedP.sublist (List.drop_sublist k ids)
    have hhead : (ids.drop k).headD 0 ≤ (compact (ids.drop k)).headD 0 :=
      suffix_head (compact_suffix _) hksort hcne
    have hhead0 : ids.headD 0 ≤ (compact (ids.drop k)).headD 0 := suffix_head hsuf h.sortedP hcne
    have hin : ∀ i, (i ≤ ids.headD 0 ∨ i ∈ ids) →
        i ≤ (compact (ids.drop k)).headD 0 ∨ i ∈ compact (ids.drop k) := by
      intro i hi
      rcases hi with hi | hi
      · left; omega
      · rcases suffix_split hsuf h.sortedP hcne hi with hi | hi
        · right; exact hi
        · left; omega
    have key : ∀ missed', missed'.Pairwise (· < ·) →
        (∀ i ∈ missed', i ∈ missed ∨ (ids.take k ≠ [] ∧ (ids.take k).headD 0 ≤ i ∧
          i < (ids.drop k).headD 0 ∧ i ∉ ids.take k)) →
        RI (compact (ids.drop k)) missed' claims log := by
      intro missed' hs hm
      refine ⟨hksort.sublist (compact_suffix _).sublist, hs, ?_, ?_, h.once⟩
      · intro i hi
        rcases hm i hi with hi | ⟨_, _, hi, _⟩
        · have := h.missLt i hi; omega
        · omega
      · intro i hd
        obtain ⟨h1, h2, h3, h4⟩ := h.del i hd
        refine ⟨hcne, hin i h2, ?_, h4⟩
        intro hi
        rcases hm i hi with hi | ⟨hne, hlo, hhi, hnr⟩
        · exact h3 hi
        · have hh : (ids.take k).headD 0 = ids.headD 0 := by
            cases ids with
            | nil => simp at hne
            | cons x xs =>
              cases hk' : k with
              | zero => rw [hk'] at hne; simp at hne
              | succ n => simp
          have hhm : ids.headD 0 ∈ ids.take k := by rw [← hh]; exact headD_mem hne
          rcases h2 with h2 | h2
          · have : i = ids.headD 0 := by omega
            rw [this] at hnr; exact hnr hhm
          · rw [← List.take_append_drop k ids] at h2
            rcases List.mem_append.mp h2 with h2 | h2
            · exact hnr h2
            · have := head_le hksort h2; omega
    split
    · exact key missed h.sortedM (fun i hi => Or.inl hi)
    · rename_i hne
      refine key _ (foldl_insert_sorted h.sortedM) ?_
      intro i hi
      rcases mem_foldl_insert.mp hi with hi | hi
      · exact Or.inr ⟨hne, mem_gaps.mp hi⟩
      · exact Or.inl hi

/-- The replay invariant of a state. -/
def StRI (s : St) : Prop := RI s.processed s.missed s.claims s.log

theorem onInitialize_RI {c : Cfg} (hmax : 0 < c.maxIds) {s : St} (h : StRI s) :
    StRI (onInitialize c s) := by
  unfold onInitialize
  dsimp only
  have h0 : LoopRI ⟨{ s with now := s.now + 1, validAt := upd s.validAt (s.now + 1) [] },
      s.processed, false⟩ := h
  have h1 := foldl_ind processOne_RI (s.validAt (s.now + 1)) _ h0
  -- the processed ids in storage are not touched inside the loop
  have hp : ∀ (l : List Nat) (acc : Loop), (l.foldl processOne acc).s.processed = acc.s.processed := by
    intro l
    induction l with
    | nil => intro acc; rfl
    | cons x xs ih =>
      intro acc
      rw [List.foldl_cons, ih]
      unfold processOne
      dsimp only
      split
      · rfl
      · unfold deliver
        split <;> split <;> rfl
  have hany : ∀ (l : List Nat) (acc : Loop), (l.foldl processOne acc).any = false →
      acc.any = false ∧ (l.foldl processOne acc).ids = acc.ids := by
    intro l
    induction l with
    | nil => intro acc h; exact ⟨h, rfl⟩
    | cons x xs ih =>
      intro acc h
      rw [List.foldl_cons] at h ⊢
      obtain ⟨h1, h2⟩ := ih _ h
      unfold processOne at h1 h2 ⊢
      dsimp only at h1 h2 ⊢
      split at h1
      · rename_i hst
        rw [if_pos hst] at h2 ⊢
        exact ⟨h1, h2⟩
      · split at h1 <;> cases h1
  split
  · exact prune_RI hmax h1
  · rename_i hc
    unfold StRI
    rw [hp]
    dsimp only
    unfold LoopRI at h1
    -- either nothing was processed, or the list is empty
    set r := (s.validAt (s.now + 1)).foldl processOne
      ⟨{ s with now := s.now + 1, validAt := upd s.validAt (s.now + 1) [] }, s.processed, false⟩ with hr
    by_cases ha : r.any = true
    · have he : r.ids = [] := by
        by_contra hne; exact hc ⟨ha, hne⟩
      -- ids only grow, so they were empty before
      have hgrow : ∀ (l : List Nat) (acc : Loop), (l.foldl processOne acc).ids = [] → acc.ids = [] := by
        intro l
        induction l with
        | nil => intro acc h; exact h
        | cons x xs ih =>
          intro acc h
          rw [List.foldl_cons] at h
          have := ih _ h
          unfold processOne at this
          dsimp only at this
          split at this
          · exact this
          · split at this
            · exact absurd this insertSorted_ne
            · exact this
      have := hgrow _ _ he
      dsimp only at this
      rw [this, ← he]; exact h1
    · have : r.any = false := by simpa using ha
      have hids : r.ids = s.processed := (hany _ _ this).2
      rw [hids] at h1
      exact h1

theorem deliveries_append_ne {i : Nat} {ext log : List Ev} (h : ∀ e ∈ ext, isDelivery i e = false) :
    deliveries i (ext ++ log) = deliveries i log := by
  unfold deliveries
  rw [List.filter_append, List.filter_eq_nil_iff.mpr (by simpa using h), List.nil_append]

theorem submit_RI {c : Cfg} {s s' : St} {id cl : Nat} (h : StRI s) (hnd : deliveries id s.log = [])
    (hs : doSubmitEvent c s id cl = .ok s') : StRI s' := by
  obtain ⟨_, _, rfl⟩ := doSubmitEvent_ok hs
  refine RI.mono h (List.Sublist.refl _) ?_ (fun i => deliveries_cons_ne rfl)
  intro i hd hc
  have hi : i ≠ id := by rintro rfl; exact hd hnd
  dsimp only
  rw [upd_ne _ _ hi]; exact hc

theorem StRI.step {c : Cfg} (hmax : 0 < c.maxIds) {s s' : St} {op : Op} (h : StRI s)
    (hs : step c s op = .ok s') : StRI s' := by
  cases op with
  | submitEvent who id cl =>
    obtain ⟨_, hg, hd⟩ := submitEvent_ok hs
    refine submit_RI h ?_ hd
    by_contra hne
    obtain ⟨h1, h2, _, _⟩ := h.del id hne
    rcases hg with hg | ⟨hg1, hg2⟩
    · exact h1 hg
    · rcases h2 with h2 | h2
      · omega
      · exact hg2 h2
  | submitMissing who id cl =>
    obtain ⟨_, hg, hd⟩ := submitMissing_ok hs
    refine submit_RI h ?_ hd
    by_contra hne
    exact (h.del id hne).2.2.1 hg
  | challenge who id =>
    obtain ⟨_, _, _, _, rfl⟩ := submitChallenge_ok hs
    exact RI.mono h (List.Sublist.refl _) (fun _ _ hc => hc) (fun i => deliveries_cons_ne rfl)
  | notarize idx id yes =>
    obtain ⟨_, _, e1, e2, _, _, _, e3, ⟨ext, e4, e5, _⟩, _⟩ := notarize_frame hs
    unfold StRI
    rw [e1, e2, e4]
    refine RI.mono h (List.Sublist.refl _) ?_ (fun i => deliveries_append_ne (e5 i))
    intro i _ hc
    rcases e3 with e3 | ⟨e3, _⟩ <;> rw [e3]
    · exact hc
    · rw [upd_apply]; split
      · rfl
      · exact hc
  | setRelayer who => obtain ⟨_, rfl⟩ := setRelayer_ok hs; exact h
  | depositBond who => obtain ⟨_, _, rfl⟩ := depositBond_ok hs; exact h
  | withdrawBond who => obtain ⟨_, _, _, rfl⟩ := withdrawBond_ok hs; exact h
  | setPeriod n => cases hs; exact h
  | removeMissing lo hi =>
    cases hs
    exact RI.mono h List.filter_sublist (fun _ _ hc => hc) (fun _ => rfl)
  | setNotaries keys n => cases hs; exact h
  | fund who amt => cases hs; exact h
  | nextBlock => cases hs; exact onInitialize_RI hmax h

theorem StRI.genesis {s : St} (h : Genesis s) : StRI s := by
  unfold StRI
  rw [h.processed, h.missed, h.log]
  exact ⟨by simp, by simp, by simp, by simp [deliveries], by simp [deliveries]⟩

theorem ReachP.ri {c : Cfg} {P : Op → Prop} {G : St → Prop} (hmax : 0 < c.maxIds) {s : St}
    (h : ReachP c P G s) : StRI s := by
  induction h with
  | init hg _ => exact .genesis hg
  | step _ _ hs ih => exact ih.step hmax hs

end Verif.Ethy
