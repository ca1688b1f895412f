import Verif.Xrpl.Frames

/-!
# The book-keeping of deposits
-/

namespace Verif.Xrpl

/-- Book-keeping of submitted (`P`), known and settled transactions; `e` is the start of the submission window. -/
structure DI (P : Nat → List Hash) (details : Hash → Option (Nat × Data)) (settled : Nat → List Hash) (e : Nat)
    (credited : List (Hash × Nat × Data)) : Prop where
  det : ∀ b h, h ∈ P b → details h ≠ none
  nodup : ∀ b, (P b).Nodup
  uniq : ∀ b b' h, h ∈ P b → h ∈ P b' → b = b'
  known : ∀ i h, h ∈ settled i → ∃ j d, details h = some (j, d) ∧ j % U32 = i
  disj : ∀ b i h, h ∈ P b → h ∉ settled i
  snodup : ∀ i, (settled i).Nodup
  old : ∀ x ∈ credited, x.1 ∈ settled x.2.1 ∨ x.2.1 < e
  new : ∀ b h, h ∈ P b → ∀ j d, details h = some (j, d) → ∀ x ∈ credited, x.1 = h → x.2.1 ≠ j % U32
  once : (credited.map (fun x => (x.1, x.2.1))).Nodup

theorem DI.sub {P P' : Nat → List Hash} {d : Hash → Option (Nat × Data)} {st : Nat → List Hash} {e : Nat}
    {cr : List (Hash × Nat × Data)} (h : DI P d st e cr) (hs : ∀ b, (P' b).Sublist (P b)) : DI P' d st e cr where
  det := fun b h' hm => h.det b h' ((hs b).subset hm)
  nodup := fun b => (h.nodup b).sublist (hs b)
  uniq := fun b b' h' h1 h2 => h.uniq b b' h' ((hs b).subset h1) ((hs b').subset h2)
  known := h.known
  disj := fun b i h' h1 => h.disj b i h' ((hs b).subset h1)
  snodup := h.snodup
  old := h.old
  new := fun b h' h1 => h.new b h' ((hs b).subset h1)
  once := h.once

theorem DI.window {P : Nat → List Hash} {d : Hash → Option (Nat × Data)} {st : Nat → List Hash} {e e' : Nat}
    {cr : List (Hash × Nat × Data)} (h : DI P d st e cr) (he : e ≤ e') : DI P d st e' cr :=
  { h with old := fun x hx => (h.old x hx).imp_right (fun h => Nat.lt_of_lt_of_le h he) }

theorem upd_sub {P : Nat → List Hash} {n : Nat} {l l' : List Hash} (hs : l'.Sublist l) (b : Nat) :
    (upd P n l' b).Sublist (upd P n l b) := by
  rw [upd_apply, upd_apply]
  split
  · exact hs
  · exact List.Sublist.refl _

/-- A transaction is credited. -/
theorem DI.credit {P : Nat → List Hash} {n : Nat} {h : Hash} {hs : List Hash} {d : Hash → Option (Nat × Data)}
    {st : Nat → List Hash} {e : Nat} {cr : List (Hash × Nat × Data)} (hi : DI (upd P n (h :: hs)) d st e cr) {j : Nat}
    {x : Data} (hd : d h = some (j, x)) :
    DI (upd P n hs) d (upd st (j % U32) (st (j % U32) ++ [h])) e (cr ++ [(h, j % U32, x)]) := by
  have hin : h ∈ upd P n (h :: hs) n := by rw [upd_same]; exact List.mem_cons_self
  have hsub := hi.sub (upd_sub (P := P) (n := n) (List.sublist_cons_self h hs))
  have hgone : ∀ b, h ∉ upd P n hs b := by
    intro b hb
    have := hi.uniq b n h ((upd_sub (List.sublist_cons_self h hs) b).subset hb) hin
    subst this
    rw [upd_same] at hb
    have := hi.nodup b
    rw [upd_same] at this
    exact (List.nodup_cons.mp this).1 hb
  refine ⟨hsub.det, hsub.nodup, hsub.uniq, ?_, ?_, ?_, ?_, ?_, ?_⟩
  · intro i g hg
    rw [upd_apply] at hg
    split at hg
    · rename_i hij
      subst hij
      rcases List.mem_append.mp hg with hg | hg
      · exact hi.known _ g hg
      · rw [List.mem_singleton] at hg
        subst hg
        exact ⟨j, x, hd, rfl⟩
    · exact hi.known i g hg
  · intro b i g hg hm
    rw [upd_apply] at hm
    split at hm
    · rcases List.mem_append.mp hm with hm | hm
      · exact hsub.disj b _ g hg hm
      · rw [List.mem_singleton] at hm
        subst hm
        exact hgone b hg
    · exact hsub.disj b i g hg hm
  · intro i
    rw [upd_apply]
    split
    · rw [List.nodup_append]
      refine ⟨hi.snodup _, by simp, fun a ha b hb => ?_⟩
      rw [List.mem_singleton] at hb
      subst hb
      rintro rfl
      exact hi.disj n _ a hin ha
    · exact hi.snodup i
  · intro y hy
    rcases List.mem_append.mp hy with hy | hy
    · rcases hi.old y hy with h1 | h1
      · refine Or.inl ?_
        rw [upd_apply]
        split
        · rename_i hij
          rw [← hij]
          exact List.mem_append_left _ h1
        · exact h1
      · exact Or.inr h1
    · rw [List.mem_singleton] at hy
      subst hy
      refine Or.inl ?_
      dsimp only
      rw [upd_same]
      exact List.mem_append_right _ List.mem_cons_self
  · intro b g hg j' d' hd' y hy hyg
    rcases List.mem_append.mp hy with hy | hy
    · exact hsub.new b g hg j' d' hd' y hy hyg
    · rw [List.mem_singleton] at hy
      subst hy
      dsimp only at hyg
      subst hyg
      exact absurd hg (hgone b)
  · rw [List.map_append, List.nodup_append]
    refine ⟨hi.once, by simp, fun a ha b hb => ?_⟩
    simp only [List.map_cons, List.map_nil, List.mem_singleton] at hb
    subst hb
    rintro rfl
    obtain ⟨y, hy, hya⟩ := List.mem_map.mp ha
    simp only [Prod.mk.injEq] at hya
    exact hi.new n h hin j x hd y hy hya.1 hya.2

/-- A transaction is submitted. -/
theorem DI.submit {P : Nat → List Hash} {n : Nat} {h : Hash} {d : Hash → Option (Nat × Data)}
    {st : Nat → List Hash} {e : Nat} {cr : List (Hash × Nat × Data)} (hi : DI P d st e cr) (hn : d h = none) {j : Nat}
    (hj : e ≤ j % U32) (x : Data) : DI (upd P n (P n ++ [h])) (upd d h (some (j, x))) st e cr := by
  have hP : ∀ b, h ∉ P b := fun b hb => hi.det b h hb hn
  have hS : ∀ i, h ∉ st i := fun i hb => by
    obtain ⟨_, _, h1, _⟩ := hi.known i h hb
    rw [hn] at h1; cases h1
  have hmem : ∀ b g, g ∈ upd P n (P n ++ [h]) b → g ∈ P b ∨ (b = n ∧ g = h) := by
    intro b g hg
    rw [upd_apply] at hg
    split at hg
    · rename_i hb
      subst hb
      rcases List.mem_append.mp hg with h1 | h1
      · exact Or.inl h1
      · exact Or.inr ⟨rfl, List.mem_singleton.mp h1⟩
    · exact Or.inl hg
  have hdne : ∀ g, g ≠ h → upd d h (some (j, x)) g = d g := fun g hg => upd_ne _ _ hg
  refine ⟨?_, ?_, ?_, ?_, ?_, hi.snodup, hi.old, ?_, hi.once⟩
  · intro b g hg
    by_cases e : g = h
    · subst e; rw [upd_same]; simp
    · rw [hdne g e]
      rcases hmem b g hg with h1 | ⟨_, h1⟩
      · exact hi.det b g h1
      · exact absurd h1 e
  · intro b
    rw [upd_apply]
    split
    · rw [List.nodup_append]
      refine ⟨hi.nodup n, by simp, fun a ha c hc => ?_⟩
      rw [List.mem_singleton] at hc
      subst hc
      rintro rfl
      exact hP n ha
    · exact hi.nodup b
  · intro b b' g h1 h2
    rcases hmem b g h1 with k1 | ⟨k1, h3⟩ <;> rcases hmem b' g h2 with k2 | ⟨k2, h4⟩
    · exact hi.uniq b b' g k1 k2
    · subst h4; exact absurd k1 (hP b)
    · subst h3; exact absurd k2 (hP b')
    · rw [k1, k2]
  · intro i g hg
    have : g ≠ h := by rintro rfl; exact hS i hg
    rw [hdne g this]
    exact hi.known i g hg
  · intro b i g hg hm
    rcases hmem b g hg with h1 | ⟨_, h1⟩
    · exact hi.disj b i g h1 hm
    · subst h1; exact hS i hm
  · intro b g hg j' d' hd' y hy hyg
    by_cases eg : g = h
    · subst eg
      rw [upd_same] at hd'
      cases hd'
      intro hx
      rcases hi.old y hy with h1 | h1
      · rw [hyg] at h1; exact hS _ h1
      · omega
    · rw [hdne g eg] at hd'
      rcases hmem b g hg with h1 | ⟨_, h1⟩
      · exact hi.new b g h1 j' d' hd' y hy hyg
      · exact absurd h1 eg

/-- The first `k` transactions settled in ledger `i`, before the window, are forgotten. -/
theorem DI.forget {P : Nat → List Hash} {d : Hash → Option (Nat × Data)} {st : Nat → List Hash} {e : Nat}
    {cr : List (Hash × Nat × Data)} (hi : DI P d st e cr) {i : Nat} (k : Nat) (hlt : i < e) :
    DI P (Xrpl.forget d ((st i).take k)) (upd st i ((st i).drop k)) e cr := by
  have hsub : ∀ j g, g ∈ upd st i ((st i).drop k) j → g ∈ st j := by
    intro j g hg
    rw [upd_apply] at hg
    split at hg
    · rename_i hji; subst hji; exact List.mem_of_mem_drop hg
    · exact hg
  have hkeep : ∀ g, g ∉ (st i).take k → Xrpl.forget d ((st i).take k) g = d g := fun g hg => if_neg hg
  have hP : ∀ b g, g ∈ P b → Xrpl.forget d ((st i).take k) g = d g := fun b g hg =>
    hkeep g (fun hm => hi.disj b i g hg (List.mem_of_mem_take hm))
  refine ⟨?_, hi.nodup, hi.uniq, ?_, ?_, ?_, ?_, ?_, hi.once⟩
  · intro b g hg
    rw [hP b g hg]
    exact hi.det b g hg
  · intro j g hg
    have h1 := hsub j g hg
    obtain ⟨j', x, h2, h3⟩ := hi.known j g h1
    refine ⟨j', x, ?_, h3⟩
    rw [hkeep, h2]
    intro hm
    obtain ⟨j'', x', h4, h5⟩ := hi.known i g (List.mem_of_mem_take hm)
    rw [h2] at h4; cases h4
    rw [h3] at h5
    subst h5
    rw [upd_same] at hg
    have hnd := hi.snodup j
    rw [← List.take_append_drop k (st j), List.nodup_append] at hnd
    exact hnd.2.2 g hm g hg rfl
  · exact fun b j g hg hm => hi.disj b j g hg (hsub j g hm)
  · intro j
    rw [upd_apply]
    split
    · exact (hi.snodup i).sublist (List.drop_sublist _ _)
    · exact hi.snodup j
  · intro y hy
    rcases hi.old y hy with h1 | h1
    · by_cases hj : y.2.1 = i
      · exact Or.inr (by omega)
      · exact Or.inl (by rw [upd_ne _ _ hj]; exact h1)
    · exact Or.inr h1
  · intro b g hg j' d' hd'
    rw [hP b g hg] at hd'
    exact hi.new b g hg j' d' hd'

/-- The invariant of a state. -/
def DIs (s : St) : Prop := DI s.proc s.details s.settled (windowEnd s) s.credited

theorem clearLoop_di (stop : Nat) : ∀ (ks : List Nat) {s : St}, DIs s → stop ≤ windowEnd s → DIs (clearLoop stop ks s)
  | [], _, h, _ => h
  | k :: ks, s, h, hst => by
    unfold clearLoop
    split
    · rename_i hp
      split
      · exact DI.forget h k (by omega)
      · refine clearLoop_di stop ks ?_ hst
        have := DI.forget h (s.settled s.pruned).length (i := s.pruned) (by omega)
        rw [List.take_length, List.drop_length] at this
        exact this
    · exact h

theorem processOne_di {c : Cfg} {x : Hash → Bool} {s s' : St} {h : Hash} {hs : List Hash} {P : Nat → List Hash} {n : Nat}
    (hp : processOne c x s h = .ok s') (hi : DI (upd P n (h :: hs)) s.details s.settled (windowEnd s) s.credited) :
    DI (upd P n hs) s'.details s'.settled (windowEnd s') s'.credited := by
  have hsub := hi.sub (upd_sub (P := P) (n := n) (List.sublist_cons_self h hs))
  unfold processOne at hp
  split at hp
  · cases hp; exact hsub
  · split at hp
    · cases hp; exact hsub
    · rename_i i d hd
      split at hp
      · cases hp; exact hsub
      · simp only [bind_ok, ensure_ok, pure_ok] at hp
        obtain ⟨_, _, rfl⟩ := hp
        refine (hi.credit hd).window ?_
        simp only [windowEnd]
        omega

theorem processList_di {c : Cfg} {x : Hash → Bool} {P : Nat → List Hash} {n : Nat} : ∀ (hs : List Hash) {s s' : St},
    processList c x hs s = .ok s' → DI (upd P n hs) s.details s.settled (windowEnd s) s.credited →
    DI (upd P n []) s'.details s'.settled (windowEnd s') s'.credited
  | [], _, _, h, hi => by cases h; exact hi
  | h :: hs, s, s', hp, hi => by
    simp only [processList, bind_ok] at hp
    obtain ⟨s1, h1, h2⟩ := hp
    exact processList_di hs h2 (processOne_di h1 hi)

theorem processTx_di {c : Cfg} {x : Hash → Bool} {s s' : St} (h : processTx c x s = .ok s') (hi : DIs s) : DIs s' := by
  unfold processTx at h
  have h1 : DI (upd s.proc s.now (s.proc s.now)) s.details s.settled (windowEnd s) s.credited := by
    have : upd s.proc s.now (s.proc s.now) = s.proc := by
      funext b
      rw [upd_apply]
      split
      · rename_i e; rw [e]
      · rfl
    rw [this]; exact hi
  have := processList_di _ h h1
  obtain ⟨L, st, hi', cr, rfl⟩ := processList_frame _ h
  exact this

theorem step_di {c : Cfg} {s s' : St} {op : Op} (h : DIs s) (hs : step c s op = .ok s') : DIs s' := by
  cases op with
  | submit w i g d =>
    simp only [step, submit, bind_ok, ensure_ok, pure_ok] at hs
    obtain ⟨_, _, _, _, _, hw, _, hn, _, _, rfl⟩ := hs
    exact DI.submit h hn hw d
  | challenge w g => cases hs; exact h
  | withdraw w a x d t => obtain ⟨_, _, _, _, _, _, _, _, rfl⟩ := withdraw_frame hs; exact h
  | block ks ps x =>
    obtain ⟨_, p, o, l, sc, q, h1, _⟩ := block_ok hs
    refine processTx_di h1 ?_
    have h0 : DIs { s with payments := p, outbox := o, lost := l, sched := sc, ptr := q } := h
    have h2 := clearLoop_di (min (windowEnd s) ((s.pruned + c.maxPruned) % U32)) ps h0 (Nat.min_le_left _ _)
    exact h2
  | nftTx d => obtain ⟨_, _, _, _, rfl⟩ := nftTx_frame hs; exact h
  | signers =>
    obtain ⟨_, _, _, _, e⟩ := signers_frame s
    simp only [step, e] at hs
    cases hs
    exact h
  | nextAlloc w d a b =>
    simp only [step, nextAlloc, bind_ok, ensure_ok, pure_ok] at hs
    obtain ⟨_, _, _, _, _, _, rfl⟩ := hs
    exact h
  | curAlloc d t a b =>
    simp only [step, curAlloc, bind_ok, ensure_ok, pure_ok] at hs
    obtain ⟨_, _, _, _, rfl⟩ := hs
    exact h
  | prune i =>
    simp only [step, prune, bind_ok, ensure_ok, pure_ok] at hs
    obtain ⟨_, hi, _, _, rfl⟩ := hs
    have := DI.forget h (s.settled i).length hi
    rw [List.take_length, List.drop_length] at this
    exact this
  | setRelayer w b => cases hs; exact h
  | setDelay a v => cases hs; exact h
  | setFee d x =>
    simp only [step, bind_ok, ensure_ok, pure_ok] at hs
    obtain ⟨_, _, rfl⟩ := hs
    exact h
  | setDoor d a => cases hs; exact h
  | setMap a cur => cases hs; exact h
  | removeMap a =>
    simp only [step, bind_ok, okOr_ok, pure_ok] at hs
    obtain ⟨_, _, rfl⟩ := hs
    exact h
  | ledger L => cases hs; exact h
  | setDec a n => cases hs; exact h

theorem Reach.di {c : Cfg} {G : St → Op → Prop} {g s : St} (h : Reach c G g s) : DIs s := by
  induction h with
  | init hg =>
    refine ⟨?_, ?_, ?_, ?_, ?_, ?_, ?_, ?_, ?_⟩
    · intro b h' hm; rw [hg.proc] at hm; cases hm
    · intro b; rw [hg.proc]; exact List.nodup_nil
    · intro b b' h' hm; rw [hg.proc] at hm; cases hm
    · intro i h' hm; rw [hg.settled] at hm; cases hm
    · intro b i h' hm; rw [hg.proc] at hm; cases hm
    · intro i; rw [hg.settled]; exact List.nodup_nil
    · intro x hx; rw [hg.credited] at hx; cases hx
    · intro b h' hm; rw [hg.proc] at hm; cases hm
    · rw [hg.credited]; exact List.nodup_nil
  | step _ _ hs ih => exact step_di ih hs

end Verif.Xrpl
